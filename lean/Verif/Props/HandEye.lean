import Verif.Model.HandEye
import Verif.Props.Pose
import Verif.Props.RelativePose
import Verif.Proofs.SVD
import Mathlib.Tactic.FinCases
import Mathlib.Tactic.LinearCombination

/-!
# C40: dual quaternions and hand-eye calibration
-/

namespace Ubitrack.HandEye

open Ubitrack.Spec Matrix

/-- The 8-vector product `(p + ε p')(q + ε q') = pq + ε (pq' + p'q)` of dual quaternions, each stored as (w,x,y,z). -/
def dualMul (a b : Vec ℝ 8) : Vec ℝ 8 :=
  let p : Quat ℝ := ⟨a 1, a 2, a 3, a 0⟩
  let p' : Quat ℝ := ⟨a 5, a 6, a 7, a 4⟩
  let q : Quat ℝ := ⟨b 1, b 2, b 3, b 0⟩
  let q' : Quat ℝ := ⟨b 5, b 6, b 7, b 4⟩
  let r := p.mul q
  let s := p.mul q'
  let t := p'.mul q
  ![r.w, r.x, r.y, r.z, s.w + t.w, s.x + t.x, s.y + t.y, s.z + t.z]

/-- **C40** Converting a pose with a unit quaternion to a dual quaternion and back restores it. -/
theorem C40_round_trip (p : Pose ℝ) (hp : UnitQ p.rotation) : ofDual (toDual p) = p := by
  obtain ⟨⟨x, y, z, w⟩, t⟩ := p
  simp only [UnitQ] at hp
  have e : ∀ (i : Fin 3), (ofDual (toDual ⟨⟨x, y, z, w⟩, t⟩)).translation i = t i := by
    intro i
    fin_cases i
    all_goals simp only [ofDual, toDual, Quat.mul, Fin.isValue, Fin.zero_eta, Fin.mk_one, Fin.reduceFinMk, Matrix.cons_val]
    · linear_combination (t 0) * hp
    · linear_combination (t 1) * hp
    · linear_combination (t 2) * hp
  exact Pose.ext rfl (funext e)

/-- **C40** The dual quaternion of a composition of poses is the product of their dual quaternions. -/
theorem C40_product (p q : Pose ℝ) (hp : UnitQ p.rotation) : toDual (p.mul q) = dualMul (toDual p) (toDual q) := by
  obtain ⟨⟨x, y, z, w⟩, t⟩ := p
  obtain ⟨⟨x', y', z', w'⟩, t'⟩ := q
  simp only [UnitQ] at hp
  ext i
  fin_cases i
  all_goals simp only [dualMul, toDual, Pose.mul, Quat.mul, Quat.rotate, Pi.add_apply, Fin.isValue, Fin.zero_eta, Fin.mk_one,
    Fin.reduceFinMk, Matrix.cons_val]
  · linear_combination (-(x * t' 0 + y * t' 1 + z * t' 2) * w' - w * (t' 0 * x' + t' 1 * y' + t' 2 * z')) * hp
  · linear_combination (-(x * t' 0 + y * t' 1 + z * t' 2) * x' + w * (t' 0 * w' + (t' 1 * z' - t' 2 * y'))) * hp
  · linear_combination (-(x * t' 0 + y * t' 1 + z * t' 2) * y' + w * (t' 1 * w' + (t' 2 * x' - t' 0 * z'))) * hp
  · linear_combination (-(x * t' 0 + y * t' 1 + z * t' 2) * z' + w * (t' 2 * w' + (t' 0 * y' - t' 1 * x'))) * hp

/-- **C40** Negating both parts of a dual quaternion does not change the pose it stands for. -/
theorem C40_negated (d : Vec ℝ 8) : (ofDual (-d)).translation = (ofDual d).translation ∧
    SameRotation (ofDual (-d)).rotation (ofDual d).rotation := by
  constructor
  · ext i
    fin_cases i <;> simp [ofDual, Quat.mul]
  · right
    simp [ofDual]

/-- `(0 | q)`, the rotation of a dual quaternion as its dual part. -/
def shift (x : Vec ℝ 8) : Vec ℝ 8 := ![0, 0, 0, 0, x 0, x 1, x 2, x 3]

/-- A dual quaternion is of unit length: the quaternion is, and it is perpendicular to the dual part. -/
def UnitDual (x : Vec ℝ 8) : Prop :=
  x 0 ^ 2 + x 1 ^ 2 + x 2 ^ 2 + x 3 ^ 2 = 1 ∧ x 0 * x 4 + x 1 * x 5 + x 2 * x 6 + x 3 * x 7 = 0

theorem toDual_unit (p : Pose ℝ) (hp : UnitQ p.rotation) : UnitDual (toDual p) := by
  simp only [UnitQ] at hp
  constructor
  · simp only [toDual, Fin.isValue, Matrix.cons_val]
    linear_combination hp
  · simp only [toDual, Fin.isValue, Matrix.cons_val]
    ring

/-- The rows for a pair with `a x = x b` vanish on `x` and on `(0 | q)`. -/
theorem pairRows_vanish {a b x : Vec ℝ 8} (hx : UnitDual x) (h : dualMul a x = dualMul x b) :
    ∀ r ∈ pairRows a b, r ⬝ᵥ x = 0 ∧ r ⬝ᵥ shift x = 0 := by
  have E := fun i => congrFun h i
  have e0 := E 0
  have e1 := E 1
  have e2 := E 2
  have e3 := E 3
  have e4 := E 4
  have e5 := E 5
  have e6 := E 6
  have e7 := E 7
  simp only [dualMul, Quat.mul, Fin.isValue, Matrix.cons_val] at e0 e1 e2 e3 e4 e5 e6 e7
  clear E h
  obtain ⟨u1, u2⟩ := hx
  have s : a 0 = b 0 := by
    linear_combination x 0 * e0 + x 1 * e1 + x 2 * e2 + x 3 * e3 - (a 0 - b 0) * u1
  have s' : a 4 = b 4 := by
    linear_combination x 0 * e4 + x 1 * e5 + x 2 * e6 + x 3 * e7 + x 4 * e0 + x 5 * e1 + x 6 * e2 + x 7 * e3
      - (a 4 - b 4) * u1 - 2 * (a 0 - b 0) * u2
  intro r hr
  simp only [pairRows, List.mem_cons, List.not_mem_nil, or_false] at hr
  rcases hr with rfl | rfl | rfl | rfl | rfl | rfl
  all_goals simp only [shift, dotProduct, Fin.sum_univ_eight, Fin.isValue, Matrix.cons_val]
  · exact ⟨by linear_combination e1 - x 1 * s, by ring⟩
  · exact ⟨by linear_combination e2 - x 2 * s, by ring⟩
  · exact ⟨by linear_combination e3 - x 3 * s, by ring⟩
  · exact ⟨by linear_combination e5 - x 5 * s - x 1 * s', by linear_combination e1 - x 1 * s⟩
  · exact ⟨by linear_combination e6 - x 6 * s - x 2 * s', by linear_combination e2 - x 2 * s⟩
  · exact ⟨by linear_combination e7 - x 7 * s - x 3 * s', by linear_combination e3 - x 3 * s⟩

/-- What the last step computes when the last two rows of `Vt` span the null space `x`, `(0 | q)`. -/
theorem solve_of_span {x : Vec ℝ 8} (hx : UnitDual x) {vt : Mat ℝ 8 8} {a1 b1 a2 b2 : ℝ}
    (h6 : vt 6 = a1 • x + b1 • shift x) (h7 : vt 7 = a2 • x + b2 • shift x) (hdet : a1 * b2 - a2 * b1 ≠ 0) :
    (solve vt = none ↔ a1 * b1 = 0) ∧
    ∀ P, solve vt = some P → P = ofDual x ∨ P = ofDual (-x) := by
  obtain ⟨u1, u2⟩ := hx
  have e6 : ∀ i, vt 6 i = a1 * x i + b1 * shift x i := fun i => by rw [h6]; rfl
  have e7 : ∀ i, vt 7 i = a2 * x i + b2 * shift x i := fun i => by rw [h7]; rfl
  have i11 : inner4 ![vt 6 0, vt 6 1, vt 6 2, vt 6 3] ![vt 6 4, vt 6 5, vt 6 6, vt 6 7] = a1 * b1 := by
    simp only [inner4, e6, shift, Fin.isValue, Matrix.cons_val]
    linear_combination a1 * b1 * u1 + a1 * a1 * u2
  have i12 : inner4 ![vt 6 0, vt 6 1, vt 6 2, vt 6 3] ![vt 7 4, vt 7 5, vt 7 6, vt 7 7] = a1 * b2 := by
    simp only [inner4, e6, e7, shift, Fin.isValue, Matrix.cons_val]
    linear_combination a1 * b2 * u1 + a1 * a2 * u2
  have i21 : inner4 ![vt 7 0, vt 7 1, vt 7 2, vt 7 3] ![vt 6 4, vt 6 5, vt 6 6, vt 6 7] = a2 * b1 := by
    simp only [inner4, e6, e7, shift, Fin.isValue, Matrix.cons_val]
    linear_combination a2 * b1 * u1 + a1 * a2 * u2
  have i22 : inner4 ![vt 7 0, vt 7 1, vt 7 2, vt 7 3] ![vt 7 4, vt 7 5, vt 7 6, vt 7 7] = a2 * b2 := by
    simp only [inner4, e7, shift, Fin.isValue, Matrix.cons_val]
    linear_combination a2 * b2 * u1 + a2 * a2 * u2
  have j11 : inner4 ![vt 6 0, vt 6 1, vt 6 2, vt 6 3] ![vt 6 0, vt 6 1, vt 6 2, vt 6 3] = a1 * a1 := by
    simp only [inner4, e6, shift, Fin.isValue, Matrix.cons_val]
    linear_combination a1 * a1 * u1
  have j12 : inner4 ![vt 6 0, vt 6 1, vt 6 2, vt 6 3] ![vt 7 0, vt 7 1, vt 7 2, vt 7 3] = a1 * a2 := by
    simp only [inner4, e6, e7, shift, Fin.isValue, Matrix.cons_val]
    linear_combination a1 * a2 * u1
  have j22 : inner4 ![vt 7 0, vt 7 1, vt 7 2, vt 7 3] ![vt 7 0, vt 7 1, vt 7 2, vt 7 3] = a2 * a2 := by
    simp only [inner4, e7, shift, Fin.isValue, Matrix.cons_val]
    linear_combination a2 * a2 * u1
  unfold solve
  simp only [i11, i12, i21, i22, j11, j12, j22]
  by_cases h0 : a1 * b1 = 0
  · simp [solveQuadratic, h0]
  have ha1 : a1 ≠ 0 := left_ne_zero_of_mul h0
  have hb1 : b1 ≠ 0 := right_ne_zero_of_mul h0
  set D := a1 * b2 - a2 * b1 with hD
  have hquad : ∃ r, solveQuadratic (a2 * b2) (a1 * b2 + a2 * b1) (a1 * b1) = some r ∧
      (r = (-a2 / a1, -b2 / b1) ∨ r = (-b2 / b1, -a2 / a1)) := by
    have hdisc : (a1 * b2 + a2 * b1) * (a1 * b2 + a2 * b1) - 2 * (2 * (a1 * b1)) * (a2 * b2) = D ^ 2 := by
      rw [hD]; ring
    unfold solveQuadratic
    simp only [hdisc, Real.sqrt_sq_eq_abs]
    rw [if_neg (by push Not; exact ⟨by simpa using h0, sq_nonneg _⟩)]
    refine ⟨_, rfl, ?_⟩
    rcases abs_cases D with ⟨h, _⟩ | ⟨h, _⟩ <;> rw [h, hD]
    · left
      refine Prod.ext ?_ ?_ <;> simp only <;> field_simp <;> ring
    · right
      refine Prod.ext ?_ ?_ <;> simp only <;> field_simp <;> ring
  obtain ⟨r, hr, hr'⟩ := hquad
  rw [hr]
  have z1 : -a2 / a1 * (-a2 / a1) * (a1 * a1) + -a2 / a1 * (a1 * a2 * 2) + a2 * a2 = 0 := by
    field_simp; ring
  have z2 : -b2 / b1 * (-b2 / b1) * (a1 * a1) + -b2 / b1 * (a1 * a2 * 2) + a2 * a2 = (D / b1) ^ 2 := by
    rw [hD]; field_simp; ring
  have hpos : 0 < (D / b1) ^ 2 := by positivity
  have hsel : (if r.1 * r.1 * (a1 * a1) + r.1 * (a1 * a2 * 2) + a2 * a2 >
        r.2 * r.2 * (a1 * a1) + r.2 * (a1 * a2 * 2) + a2 * a2 then
        r.1 * r.1 * (a1 * a1) + r.1 * (a1 * a2 * 2) + a2 * a2
      else r.2 * r.2 * (a1 * a1) + r.2 * (a1 * a2 * 2) + a2 * a2) = (D / b1) ^ 2 ∧
      (if r.1 * r.1 * (a1 * a1) + r.1 * (a1 * a2 * 2) + a2 * a2 >
        r.2 * r.2 * (a1 * a1) + r.2 * (a1 * a2 * 2) + a2 * a2 then r.1 else r.2) = -b2 / b1 := by
    rcases hr' with rfl | rfl
    · simp only [z1, z2]
      rw [if_neg (by linarith), if_neg (by linarith)]
      exact ⟨rfl, rfl⟩
    · simp only [z1, z2]
      rw [if_pos hpos, if_pos hpos]
      exact ⟨rfl, rfl⟩
  simp only [hsel.1, hsel.2]
  rw [if_neg (by linarith)]
  refine ⟨by simp [h0], fun P hP => ?_⟩
  have hl : Real.sqrt (1 / (D / b1) ^ 2) = |b1 / D| := by
    rw [← Real.sqrt_sq_eq_abs]
    congr 1
    field_simp
  simp only [hl, Option.some.injEq] at hP
  have hsign : |b1 / D| * (-b2 / b1) * a1 + |b1 / D| * a2 = 1 ∨ |b1 / D| * (-b2 / b1) * a1 + |b1 / D| * a2 = -1 := by
    rcases abs_cases (b1 / D) with ⟨h, _⟩ | ⟨h, _⟩ <;> rw [h]
    · right
      field_simp
      rw [hD]; ring
    · left
      field_simp
      rw [hD]; ring
  have hzero : |b1 / D| * (-b2 / b1) * b1 + |b1 / D| * b2 = 0 := by
    field_simp; ring
  set l1 := |b1 / D| * (-b2 / b1)
  set l2 := |b1 / D|
  clear_value l1 l2
  have key : ∀ e : ℝ, l1 * a1 + l2 * a2 = e → P = ofDual (e • x) := by
    intro e he
    have hx : ∀ i, l1 * vt 6 i + l2 * vt 7 i = e * x i := by
      intro i
      rw [e6, e7]
      linear_combination x i * he + shift x i * hzero
    subst hP
    simp only [ofDual, Fin.isValue, Matrix.cons_val, hx, Pi.smul_apply, smul_eq_mul]
  rcases hsign with h | h
  · left; simpa using key 1 h
  · right; simpa using key (-1) h

/-- The last two rows of `Vt` span the null space when the other singular values are positive. -/
theorem null_space {gesvd : List (Vec ℝ 8) → Option (Vec ℝ 8 × Mat ℝ 8 8)} (hg : SingularValueSolver gesvd)
    {rows : List (Vec ℝ 8)} {s : Vec ℝ 8} {vt : Mat ℝ 8 8} (h : gesvd rows = some (s, vt)) (hs : 0 < s 5)
    {x : Vec ℝ 8} (hx : UnitDual x) (hr : ∀ r ∈ rows, r ⬝ᵥ x = 0 ∧ r ⬝ᵥ shift x = 0) :
    ∃ a1 b1 a2 b2 : ℝ, vt 6 = a1 • x + b1 • shift x ∧ vt 7 = a2 • x + b2 • shift x ∧ a1 * b2 - a2 * b1 ≠ 0 := by
  obtain ⟨hanti, -, -, -⟩ := hg rows s vt h
  have two : ∀ v, (∀ r ∈ rows, r ⬝ᵥ v = 0) → v = (vt 6 ⬝ᵥ v) • vt 6 + (vt 7 ⬝ᵥ v) • vt 7 := by
    intro v hv
    have hz : ∀ k : Fin 8, k ≤ 5 → vt k ⬝ᵥ v = 0 := fun k hk =>
      hg.orthogonal h v hv k (lt_of_lt_of_le hs (hanti hk))
    have := hg.expand h v
    rw [Fin.sum_univ_eight, hz 0 (by decide), hz 1 (by decide), hz 2 (by decide), hz 3 (by decide), hz 4 (by decide),
      hz 5 (by decide)] at this
    simpa using this
  have hX := two x fun r hr' => (hr r hr').1
  have hY := two (shift x) fun r hr' => (hr r hr').2
  set p := vt 6 ⬝ᵥ x
  set q := vt 7 ⬝ᵥ x
  set p' := vt 6 ⬝ᵥ shift x
  set q' := vt 7 ⬝ᵥ shift x
  have hXi : ∀ i, x i = p * vt 6 i + q * vt 7 i := fun i => congrFun hX i
  have hYi : ∀ i, shift x i = p' * vt 6 i + q' * vt 7 i := fun i => congrFun hY i
  clear_value p q p' q'
  have indep : ∀ c d : ℝ, (∀ i, c * x i = d * shift x i) → c = 0 ∧ d = 0 := by
    intro c d hcd
    have hc : c = 0 := by
      have h0 := hcd 0
      have h1 := hcd 1
      have h2 := hcd 2
      have h3 := hcd 3
      simp only [shift, Fin.isValue, Matrix.cons_val, mul_zero] at h0 h1 h2 h3
      linear_combination x 0 * h0 + x 1 * h1 + x 2 * h2 + x 3 * h3 - c * hx.1
    refine ⟨hc, ?_⟩
    have h0 := hcd 4
    have h1 := hcd 5
    have h2 := hcd 6
    have h3 := hcd 7
    simp only [shift, Fin.isValue, Matrix.cons_val, hc, zero_mul] at h0 h1 h2 h3
    linear_combination -x 0 * h0 - x 1 * h1 - x 2 * h2 - x 3 * h3 - d * hx.1
  have hdet : p * q' - p' * q ≠ 0 := by
    intro h0
    obtain ⟨c1, c2⟩ := indep q' q fun i => by rw [hXi, hYi]; linear_combination vt 6 i * h0
    obtain ⟨c3, c4⟩ := indep p' p fun i => by rw [hXi, hYi]; linear_combination -vt 7 i * h0
    have := (indep 1 0 fun i => by rw [hXi, c2, c4]; ring).1
    norm_num at this
  refine ⟨q' / (p * q' - p' * q), -q / (p * q' - p' * q), -p' / (p * q' - p' * q), p / (p * q' - p' * q), ?_, ?_, ?_⟩
  · ext i
    simp only [Pi.add_apply, Pi.smul_apply, smul_eq_mul]
    rw [hYi, hXi]
    have : q' / (p * q' - p' * q) * (p * vt 6 i + q * vt 7 i) + -q / (p * q' - p' * q) * (p' * vt 6 i + q' * vt 7 i)
        = (p * q' - p' * q) * vt 6 i / (p * q' - p' * q) := by ring
    rw [this, mul_div_cancel_left₀ _ hdet]
  · ext i
    simp only [Pi.add_apply, Pi.smul_apply, smul_eq_mul]
    rw [hYi, hXi]
    have : -p' / (p * q' - p' * q) * (p * vt 6 i + q * vt 7 i) + p / (p * q' - p' * q) * (p' * vt 6 i + q' * vt 7 i)
        = (p * q' - p' * q) * vt 7 i / (p * q' - p' * q) := by ring
    rw [this, mul_div_cancel_left₀ _ hdet]
  · have e : q' / (p * q' - p' * q) * (p / (p * q' - p' * q)) - -p' / (p * q' - p' * q) * (-q / (p * q' - p' * q))
        = 1 / (p * q' - p' * q) := by
      field_simp
    rw [e]
    exact one_div_ne_zero hdet

/-- The estimator on relative poses whose equations all have the pose `X` as solution: the result, if there is one, is `X`. -/
theorem estimateDual_exact {gesvd : List (Vec ℝ 8) → Option (Vec ℝ 8 × Mat ℝ 8 8)} (hg : SingularValueSolver gesvd)
    {eye hand : List (Vec ℝ 8)} {X : Pose ℝ} (hX : UnitQ X.rotation)
    (hr : ∀ r ∈ system eye hand, r ⬝ᵥ toDual X = 0 ∧ r ⬝ᵥ shift (toDual X) = 0) {P : Pose ℝ}
    (h : estimateDual gesvd eye hand = some P) : SameRotation P.rotation X.rotation ∧ P.translation = X.translation := by
  unfold estimateDual at h
  split at h
  · simp at h
  rename_i s vt hsvd
  simp only [gt_iff_lt] at h
  split at h
  · simp at h
  rename_i hs
  push Not at hs
  obtain ⟨a1, b1, a2, b2, h6, h7, hdet⟩ := null_space hg hsvd (by linarith [hs.2.2]) (toDual_unit X hX) hr
  have rt := C40_round_trip X hX
  rcases (solve_of_span (toDual_unit X hX) h6 h7 hdet).2 P h with h | h
  · rw [h, rt]
    exact ⟨Or.inl rfl, rfl⟩
  · have := C40_negated (toDual X)
    rw [rt] at this
    rw [h]
    exact ⟨this.2, this.1⟩

/-- Every pair of relative poses of two lists belongs to two corresponding poses of each. -/
theorem zip_allPairs {α β γ δ : Type*} {R : α → β → Prop} (f : α → α → γ) (g : β → β → δ) {l : List α} {m : List β}
    (h : List.Forall₂ R l m) :
    ∀ p ∈ (allPairs f l).zip (allPairs g m), ∃ a ∈ l, ∃ a' ∈ l, ∃ b ∈ m, ∃ b' ∈ m, R a b ∧ R a' b' ∧ p = (f a a', g b b') := by
  induction h with
  | nil => simp [allPairs]
  | @cons a b l m hab hlm ih =>
    intro p hp
    unfold allPairs at hp
    rw [List.zip_append (by simp [hlm.length_eq])] at hp
    rcases List.mem_append.mp hp with hp | hp
    · have : ∀ {l : List α} {m : List β}, List.Forall₂ R l m → ∀ p ∈ (l.map fun q => f q a).zip (m.map fun q => g q b),
          ∃ c ∈ l, ∃ d ∈ m, R c d ∧ p = (f c a, g d b) := by
        intro l m hlm
        induction hlm with
        | nil => simp
        | @cons c d l m hcd _ ih =>
          intro p hp
          simp only [List.map_cons, List.zip_cons_cons, List.mem_cons] at hp
          rcases hp with rfl | hp
          · exact ⟨c, by simp, d, by simp, hcd, rfl⟩
          · obtain ⟨c', h1, d', h2, h3⟩ := ih p hp
            exact ⟨c', by simp [h1], d', by simp [h2], h3⟩
      obtain ⟨c, h1, d, h2, h3, h4⟩ := this hlm p hp
      exact ⟨c, by simp [h1], a, by simp, d, by simp [h2], b, by simp, h3, hab, h4⟩
    · obtain ⟨c, h1, c', h2, d, h3, d', h4, h5⟩ := ih p hp
      exact ⟨c, by simp [h1], c', by simp [h2], d, by simp [h3], d', by simp [h4], h5⟩

/-- The hand-eye equation `A X = X B` of the relative poses of two corresponding pairs. -/
theorem relative_equation {X W e e' h h' : Pose ℝ} (hX : UnitQ X.rotation) (he : UnitQ e.rotation) (he' : UnitQ e'.rotation)
    (hh : UnitQ h.rotation) (hh' : UnitQ h'.rotation) (h1 : e.mul (X.mul h) = W) (h2 : e'.mul (X.mul h') = W) :
    (relForward e e').mul X = X.mul (relBackward h h') := by
  unfold relForward relBackward
  have g := fun (p q r : Pose ℝ) hp hq => (C08_pose_group p q r hp hq).1
  have ui : ∀ p : Pose ℝ, UnitQ p.rotation → UnitQ p.inv.rotation := fun p hp => (C08_pose_group p p p hp hp).2.2.2.2.1
  have um : ∀ p q : Pose ℝ, UnitQ p.rotation → UnitQ q.rotation → UnitQ (p.mul q).rotation :=
    fun p q hp hq => (C08_pose_group p q p hp hq).2.2.2.1
  have inv1 : ∀ p : Pose ℝ, UnitQ p.rotation → p.inv.mul p = Pose.one := fun p hp => (C08_pose_group p p p hp hp).2.2.1.1
  have inv2 : ∀ p : Pose ℝ, UnitQ p.rotation → p.mul p.inv = Pose.one := fun p hp => (C08_pose_group p p p hp hp).2.2.1.2
  have one1 : ∀ p : Pose ℝ, UnitQ p.rotation → Pose.one.mul p = p := fun p hp => (C08_pose_group p p p hp hp).2.1.1
  have one2 : ∀ p : Pose ℝ, UnitQ p.rotation → p.mul Pose.one = p := fun p hp => (C08_pose_group p p p hp hp).2.1.2
  -- e X = W h⁻¹, X h' = e'⁻¹ W
  have s1 : e.mul X = W.mul h.inv := by
    rw [← h1, g e (X.mul h) h.inv he (um X h hX hh), g X h h.inv hX hh, inv2 h hh, one2 X hX]
  have s2 : X.mul h' = e'.inv.mul W := by
    rw [← h2, ← g e'.inv e' (X.mul h') (ui e' he') he', inv1 e' he', one1 _ (um X h' hX hh')]
  have hW : UnitQ W.rotation := h1 ▸ um e _ he (um X h hX hh)
  rw [g e'.inv e X (ui e' he') he, s1, ← g e'.inv W h.inv (ui e' he') hW, ← s2, g X h' h.inv hX hh']

/-- For exact data every row of the system vanishes on the dual quaternion of the pose and on `(0 | q)`. -/
theorem system_vanish {eyes hands : List (Pose ℝ)} {X W : Pose ℝ} (hX : UnitQ X.rotation) (he : ∀ e ∈ eyes, UnitQ e.rotation)
    (hh : ∀ h ∈ hands, UnitQ h.rotation) (hrel : List.Forall₂ (fun e h => e.mul (X.mul h) = W) eyes hands) :
    ∀ r ∈ system (allPairs (fun p q => toDual (relForward p q)) eyes) (allPairs (fun p q => toDual (relBackward p q)) hands),
      r ⬝ᵥ toDual X = 0 ∧ r ⬝ᵥ shift (toDual X) = 0 := by
  intro r hr
  obtain ⟨p, hp, hr⟩ := List.mem_flatMap.mp hr
  obtain ⟨e, m1, e', m2, h, m3, h', m4, r1, r2, rfl⟩ := zip_allPairs _ _ hrel p hp
  have rel := relative_equation hX (he e m1) (he e' m2) (hh h m3) (hh h' m4) r1 r2
  refine pairRows_vanish (toDual_unit X hX) ?_ r hr
  have uf : UnitQ (relForward e e').rotation :=
    (C08_pose_group e'.inv e e (C08_pose_group e' e' e' (he e' m2) (he e' m2)).2.2.2.2.1 (he e m1)).2.2.2.1
  rw [← C40_product _ _ uf, ← C40_product _ _ hX, rel]

/-- **C40** Hand-eye calibration is exact for exact data: if eye and hand poses are given with `eᵢ X hᵢ` always the same pose,
then any pose returned is `X`, whatever the movements are. -/
theorem C40_exact_partial {gesvd : List (Vec ℝ 8) → Option (Vec ℝ 8 × Mat ℝ 8 8)} (hg : SingularValueSolver gesvd)
    {eyes hands : List (Pose ℝ)} {X W : Pose ℝ} (hX : UnitQ X.rotation) (he : ∀ e ∈ eyes, UnitQ e.rotation)
    (hh : ∀ h ∈ hands, UnitQ h.rotation) (hrel : List.Forall₂ (fun e h => e.mul (X.mul h) = W) eyes hands)
    {P : Pose ℝ} (h : estimate gesvd eyes hands = some P) :
    SameRotation P.rotation X.rotation ∧ P.translation = X.translation :=
  estimateDual_exact hg hX (system_vanish hX he hh hrel) h

/-- **C40** For exact data with enough movements (the sixth singular value is not small) a pose is returned unless the
quaternion and the dual part of the seventh row of `Vt` are perpendicular. -/
theorem C40_returns_partial {gesvd : List (Vec ℝ 8) → Option (Vec ℝ 8 × Mat ℝ 8 8)} (hg : SingularValueSolver gesvd)
    {eyes hands : List (Pose ℝ)} {X W : Pose ℝ} (hX : UnitQ X.rotation) (he : ∀ e ∈ eyes, UnitQ e.rotation)
    (hh : ∀ h ∈ hands, UnitQ h.rotation) (hrel : List.Forall₂ (fun e h => e.mul (X.mul h) = W) eyes hands)
    {s : Vec ℝ 8} {vt : Mat ℝ 8 8}
    (h : gesvd (system (allPairs (fun p q => toDual (relForward p q)) eyes)
      (allPairs (fun p q => toDual (relBackward p q)) hands)) = some (s, vt)) (hs : 1e-2 ≤ s 5) :
    (∃ P, estimate gesvd eyes hands = some P) ↔
      vt 6 0 * vt 6 4 + vt 6 1 * vt 6 5 + vt 6 2 * vt 6 6 + vt 6 3 * vt 6 7 ≠ 0 := by
  have hr := system_vanish hX he hh hrel
  have hx := toDual_unit X hX
  obtain ⟨a1, b1, a2, b2, h6, h7, hdet⟩ := null_space hg h (by linarith) hx hr
  have hs0 : ∀ l : Fin 8, ∀ a b : ℝ, vt l = a • toDual X + b • shift (toDual X) → s l = 0 := by
    intro l a b hl
    obtain ⟨-, hpos, hort, herr⟩ := hg _ s vt h
    by_contra hne
    have hz := hg.orthogonal h (vt l) (fun r hr' => by
      rw [hl, dotProduct_add, dotProduct_smul, dotProduct_smul, (hr r hr').1, (hr r hr').2]; simp) l
      (lt_of_le_of_ne (hpos l) (Ne.symm hne))
    have := congrFun (congrFun hort l) l
    rw [Matrix.mul_apply'] at this
    have e : vt l ⬝ᵥ vt l = 1 := by simpa using this
    rw [e] at hz
    norm_num at hz
  have e : estimate gesvd eyes hands = solve vt := by
    unfold estimate estimateDual
    simp only [h]
    rw [if_neg]
    push Not
    rw [hs0 6 a1 b1 h6, hs0 7 a2 b2 h7]
    norm_num at hs ⊢
    exact hs
  have hin : vt 6 0 * vt 6 4 + vt 6 1 * vt 6 5 + vt 6 2 * vt 6 6 + vt 6 3 * vt 6 7 = a1 * b1 := by
    have e6 : ∀ i, vt 6 i = a1 * toDual X i + b1 * shift (toDual X) i := fun i => by rw [h6]; rfl
    have u1 := hx.1
    have u2 := hx.2
    generalize toDual X = x at *
    simp only [e6, shift, Fin.isValue, Matrix.cons_val]
    linear_combination a1 * b1 * u1 + a1 * a1 * u2
  rw [e, hin, Ne, ← (solve_of_span hx h6 h7 hdet).1, ← Option.isSome_iff_exists, Option.isSome_iff_ne_none]

/-! ### The incremental calibration -/

theorem zip_newPairs {α β γ δ : Type*} {R : α → β → Prop} (f : α → α → γ) (g : β → β → δ) {l : List α} {m : List β}
    (h : List.Forall₂ R l m) :
    ∀ p ∈ (newPairs f l 0).zip (newPairs g m 0),
      ∃ a ∈ l, ∃ a' ∈ l, ∃ b ∈ m, ∃ b' ∈ m, R a b ∧ R a' b' ∧ p = (f a a', g b b') := by
  have hlen := h.length_eq
  have hR : ∀ i (h1 : i < l.length) (h2 : i < m.length), R l[i] m[i] := fun i h1 h2 => (List.forall₂_iff_get.mp h).2 i h1 h2
  have e : (newPairs f l 0).zip (newPairs g m 0) =
      ((l.zipIdx).zip (m.zipIdx)).flatMap fun n => ((l.take n.1.2).zip (m.take n.2.2)).map fun o => (f o.1 n.1.1, g o.2 n.2.1) := by
    have aux : ∀ (l' : List (α × ℕ)) (m' : List (β × ℕ)), List.Forall₂ (fun x y => x.2 = y.2) l' m' →
        (l'.flatMap fun new => (l.take new.2).map fun old => f old new.1).zip
          (m'.flatMap fun new => (m.take new.2).map fun old => g old new.1) =
        (l'.zip m').flatMap fun n => ((l.take n.1.2).zip (m.take n.2.2)).map fun o => (f o.1 n.1.1, g o.2 n.2.1) := by
      intro l' m' hlm
      induction hlm with
      | nil => rfl
      | @cons x y l' m' hxy _ ih =>
        rw [List.flatMap_cons, List.flatMap_cons, List.zip_append (by simp [hxy, hlen]), ih, List.zip_cons_cons, List.flatMap_cons]
        congr 1
        rw [List.zip_map]
        rfl
    unfold newPairs
    rw [List.drop_zero, List.drop_zero]
    refine aux _ _ ?_
    rw [List.forall₂_iff_get]
    refine ⟨by simp [hlen], fun i h1 h2 => by simp⟩
  rw [e]
  intro p hp
  obtain ⟨⟨⟨a', i⟩, ⟨b', j⟩⟩, hn, hp⟩ := List.mem_flatMap.mp hp
  obtain ⟨⟨a, b⟩, ho, rfl⟩ := List.mem_map.mp hp
  obtain ⟨k, hk, hk'⟩ := List.mem_iff_getElem.mp hn
  obtain ⟨k', hk1, hk1'⟩ := List.mem_iff_getElem.mp ho
  simp only [List.length_zip, List.length_zipIdx, List.length_take] at hk hk1
  simp only [List.getElem_zip, List.getElem_zipIdx, Prod.mk.injEq, List.getElem_take] at hk' hk1'
  obtain ⟨⟨rfl, -⟩, rfl, -⟩ := hk'
  obtain ⟨rfl, rfl⟩ := hk1'
  exact ⟨_, List.getElem_mem _, _, List.getElem_mem _, _, List.getElem_mem _, _, List.getElem_mem _, hR _ _ _, hR _ _ _, rfl⟩

/-- **C40** The incremental calibration expects the inverse poses: its equations, for any selection of the stored pairs, are
solved by `X` if `hᵢ X⁻¹ eᵢ` is always the same pose (for the function it is `eᵢ X hᵢ`, see `C40_exact_partial`). -/
theorem C40_incremental {gesvd : List (Vec ℝ 8) → Option (Vec ℝ 8 × Mat ℝ 8 8)} (hg : SingularValueSolver gesvd)
    {c : Calibration} {eyes hands : List (Pose ℝ)} (hc : History c eyes hands) (h3 : 3 ≤ eyes.length)
    {X W : Pose ℝ} (hX : UnitQ X.rotation) (he : ∀ e ∈ eyes, UnitQ e.rotation) (hh : ∀ h ∈ hands, UnitQ h.rotation)
    (hrel : List.Forall₂ (fun e h => h.mul (X.inv.mul e) = W) eyes hands)
    {selB selA : List (Vec ℝ 8)} (hsel : ∀ p ∈ selB.zip selA, p ∈ c.allB.zip c.allA)
    {P : Pose ℝ} (h : estimateDual gesvd selB selA = some P) :
    SameRotation P.rotation X.rotation ∧ P.translation = X.translation := by
  refine estimateDual_exact hg hX (fun r hr => ?_) h
  obtain ⟨p, hp, hr⟩ := List.mem_flatMap.mp hr
  obtain ⟨-, -, hA, hB⟩ := C46_history hc h3
  have hp := hsel p hp
  rw [hA, hB] at hp
  obtain ⟨e, m1, e', m2, h, m3, h', m4, r1, r2, rfl⟩ := zip_newPairs _ _ hrel p hp
  refine pairRows_vanish (toDual_unit X hX) ?_ r hr
  have ui : ∀ p : Pose ℝ, UnitQ p.rotation → UnitQ p.inv.rotation := fun p hp => (C08_pose_group p p p hp hp).2.2.2.2.1
  have uf : UnitQ (relBackward e e').rotation := (C08_pose_group e' e.inv e (he e' m2) (ui e (he e m1))).2.2.2.1
  have inv1 : ∀ p : Pose ℝ, UnitQ p.rotation → p.inv.mul p = Pose.one := fun p hp => (C08_pose_group p p p hp hp).2.2.1.1
  have inv2 : ∀ p : Pose ℝ, UnitQ p.rotation → p.mul p.inv = Pose.one := fun p hp => (C08_pose_group p p p hp hp).2.2.1.2
  have one1 : ∀ p : Pose ℝ, UnitQ p.rotation → Pose.one.mul p = p := fun p hp => (C08_pose_group p p p hp hp).2.1.1
  have one2 : ∀ p : Pose ℝ, UnitQ p.rotation → p.mul Pose.one = p := fun p hp => (C08_pose_group p p p hp hp).2.1.2
  have um : ∀ p q : Pose ℝ, UnitQ p.rotation → UnitQ q.rotation → UnitQ (p.mul q).rotation :=
    fun p q hp hq => (C08_pose_group p q p hp hq).2.2.2.1
  have g := fun (p q r : Pose ℝ) hp hq => (C08_pose_group p q r hp hq).1
  -- h'⁻¹ h = (X⁻¹ e') (X⁻¹ e)⁻¹, that is B = X⁻¹ e' e⁻¹ X
  have rel := relative_equation (X := X.inv) (ui X hX) (hh h m3) (hh h' m4) (he e m1) (he e' m2) r1 r2
  have s : X.mul ((relForward h h').mul X.inv) = relBackward e e' := by
    rw [rel, ← g X X.inv _ hX (ui X hX), inv2 X hX, one1 _ uf]
  have uB : UnitQ (relForward h h').rotation := um _ _ (ui _ (hh h' m4)) (hh h m3)
  have t : (relBackward e e').mul X = X.mul (relForward h h') := by
    rw [← s, g X _ X hX (um _ _ uB (ui X hX)), g _ X.inv X uB (ui X hX), inv1 X hX, one2 _ uB]
  rw [← C40_product _ _ uf, ← C40_product _ _ hX, t]

/-! ### Concrete data

Three poses without translation (the identity and half turns about the x and y axis), hand poses their inverses, so that
the calibrated pose is the identity. -/

def demoEyes : List (Pose ℝ) := [⟨⟨0, 0, 0, 1⟩, 0⟩, ⟨⟨1, 0, 0, 0⟩, 0⟩, ⟨⟨0, 1, 0, 0⟩, 0⟩]

def demoHands : List (Pose ℝ) := demoEyes.map Pose.inv

noncomputable def demoSystem : List (Vec ℝ 8) :=
  system (allPairs (fun p q => toDual (relForward p q)) demoEyes) (allPairs (fun p q => toDual (relBackward p q)) demoHands)

/-- A singular value decomposition of `demoSystem`; `(α, β)` is the basis of its null space. -/
noncomputable def demoSolver (α β : ℝ) (rows : List (Vec ℝ 8)) : Option (Vec ℝ 8 × Mat ℝ 8 8) :=
  open Classical in
  if rows = demoSystem then
    some (![Real.sqrt 8, Real.sqrt 8, Real.sqrt 8, Real.sqrt 8, Real.sqrt 8, Real.sqrt 8, 0, 0],
      !![0, 1, 0, 0, 0, 0, 0, 0;
         0, 0, 1, 0, 0, 0, 0, 0;
         0, 0, 0, 1, 0, 0, 0, 0;
         0, 0, 0, 0, 0, 1, 0, 0;
         0, 0, 0, 0, 0, 0, 1, 0;
         0, 0, 0, 0, 0, 0, 0, 1;
         α, 0, 0, 0, β, 0, 0, 0;
         -β, 0, 0, 0, α, 0, 0, 0])
  else none

theorem demoSystem_error (v : Vec ℝ 8) :
    rowsError demoSystem v = 8 * (v 1 ^ 2 + v 2 ^ 2 + v 3 ^ 2 + v 5 ^ 2 + v 6 ^ 2 + v 7 ^ 2) := by
  simp [rowsError, demoSystem, system, allPairs, demoEyes, demoHands, relForward, relBackward, Pose.mul, Pose.inv, Quat.mul,
    Quat.conj, Quat.rotate, toDual, pairRows, dotProduct, Fin.sum_univ_eight]
  ring

theorem demoSolver_correct {α β : ℝ} (h : α ^ 2 + β ^ 2 = 1) : SingularValueSolver (demoSolver α β) := by
  intro rows s vt hs
  unfold demoSolver at hs
  split at hs
  · rename_i hrows
    obtain ⟨rfl, rfl⟩ := Prod.mk.inj (Option.some.inj hs)
    subst hrows
    refine ⟨?_, ?_, ?_, ?_⟩
    · intro i j hij
      fin_cases i <;> fin_cases j <;> first | (simp; done) | (exact absurd hij (by decide))
    · intro k
      fin_cases k <;> simp
    · ext i j
      rw [Matrix.mul_apply, Fin.sum_univ_eight]
      fin_cases i <;> fin_cases j <;> simp <;> first | ring1 | linear_combination h
    · intro v
      rw [demoSystem_error, Fin.sum_univ_eight]
      have := Real.sq_sqrt (show (0 : ℝ) ≤ 8 by norm_num)
      simp [dotProduct, Fin.sum_univ_eight, mul_pow, this]
      ring
  · simp at hs

theorem demo_consistent : (∀ e ∈ demoEyes, UnitQ e.rotation) ∧ (∀ h ∈ demoHands, UnitQ h.rotation) ∧
    List.Forall₂ (fun e h => e.mul (Pose.one.mul h) = Pose.one) demoEyes demoHands := by
  have h1 : ∀ e ∈ demoEyes, UnitQ e.rotation := by
    simp [demoEyes, UnitQ]
  have g := fun (p : Pose ℝ) hp => C08_pose_group p p p hp hp
  refine ⟨h1, ?_, ?_⟩
  · intro h hh
    obtain ⟨e, he, rfl⟩ := List.mem_map.mp hh
    exact (g e (h1 e he)).2.2.2.2.1
  · rw [demoHands, List.forall₂_map_right_iff, List.forall₂_same]
    intro e he
    rw [(g e.inv (g e (h1 e he)).2.2.2.2.1).2.1.1, (g e (h1 e he)).2.2.1.2]

/-- The hypotheses of `C40_exact_partial` are met and the identity is found. -/
example : SingularValueSolver (demoSolver (3 / 5) (4 / 5)) ∧ UnitQ (Pose.one : Pose ℝ).rotation ∧
    ∃ P, estimate (demoSolver (3 / 5) (4 / 5)) demoEyes demoHands = some P := by
  have hg := demoSolver_correct (α := 3 / 5) (β := 4 / 5) (by norm_num)
  obtain ⟨h1, h2, h3⟩ := demo_consistent
  have hu : UnitQ (Pose.one : Pose ℝ).rotation := by simp [UnitQ, Pose.one, Quat.one]
  refine ⟨hg, hu, (C40_returns_partial hg hu h1 h2 h3 (if_pos rfl) ?_).mpr ?_⟩
  · have : (1 : ℝ) ≤ Real.sqrt 8 := Real.one_le_sqrt.mpr (by norm_num)
    simp
    linarith
  · simp

/-- The hypotheses of `C40_incremental` are met. -/
example : ∃ c, History c demoEyes demoHands ∧ 3 ≤ demoEyes.length ∧
    List.Forall₂ (fun e h => h.mul (Pose.one.inv.mul e) = Pose.one) demoEyes demoHands := by
  obtain ⟨c, hc⟩ := C46_no_overrun (eyes' := demoEyes) (hands' := demoHands) History.start (List.nil_prefix)
  refine ⟨c, History.call History.start List.nil_prefix List.nil_prefix rfl hc, by simp [demoEyes], ?_⟩
  simp [demoEyes, demoHands, Pose.mul, Pose.inv, Pose.one, Quat.mul, Quat.conj, Quat.one, Quat.rotate]

/-- **C40** (refuted) It may find no pose although data and movements are fine: a correct singular value decomposition can have a
basis of the null space for which the quadratic equation degenerates (here the two unit vectors one gets for a block matrix). -/
theorem C40_returns_refuted : ∃ (gesvd : List (Vec ℝ 8) → Option (Vec ℝ 8 × Mat ℝ 8 8)) (eyes hands : List (Pose ℝ)) (X W : Pose ℝ),
    SingularValueSolver gesvd ∧ UnitQ X.rotation ∧ (∀ e ∈ eyes, UnitQ e.rotation) ∧ (∀ h ∈ hands, UnitQ h.rotation) ∧
    List.Forall₂ (fun e h => e.mul (X.mul h) = W) eyes hands ∧
    (∃ s vt, gesvd (system (allPairs (fun p q => toDual (relForward p q)) eyes)
      (allPairs (fun p q => toDual (relBackward p q)) hands)) = some (s, vt) ∧ 1 ≤ s 5) ∧
    estimate gesvd eyes hands = none := by
  have hg := demoSolver_correct (α := 1) (β := 0) (by norm_num)
  obtain ⟨h1, h2, h3⟩ := demo_consistent
  have hu : UnitQ (Pose.one : Pose ℝ).rotation := by simp [UnitQ, Pose.one, Quat.one]
  have h8 : (1 : ℝ) ≤ Real.sqrt 8 := Real.one_le_sqrt.mpr (by norm_num)
  refine ⟨_, demoEyes, demoHands, Pose.one, Pose.one, hg, hu, h1, h2, h3, ⟨_, _, if_pos rfl, by simpa using h8⟩, ?_⟩
  have := (C40_returns_partial hg hu h1 h2 h3 (if_pos rfl) (by simp; linarith)).not
  rw [← Option.isSome_iff_exists] at this
  simpa using this

/-! ### The sign of the quaternions -/

/-- The data of `demoEyes` with the quaternion of the second pose negated (the same rotation). -/
def negatedEyes : List (Pose ℝ) := [⟨⟨0, 0, 0, 1⟩, 0⟩, ⟨⟨-1, 0, 0, 0⟩, 0⟩, ⟨⟨0, 1, 0, 0⟩, 0⟩]

noncomputable def negatedSystem : List (Vec ℝ 8) :=
  system (allPairs (fun p q => toDual (relForward p q)) negatedEyes) (allPairs (fun p q => toDual (relBackward p q)) demoHands)

/-- A singular value decomposition of `negatedSystem`. -/
noncomputable def negatedSolver (rows : List (Vec ℝ 8)) : Option (Vec ℝ 8 × Mat ℝ 8 8) :=
  open Classical in
  if rows = negatedSystem then
    some (![Real.sqrt 8, Real.sqrt 8, 2, 2, 2, 2, 0, 0],
      !![1, 0, 0, 0, 0, 0, 0, 0;
         0, 0, 0, 0, 1, 0, 0, 0;
         0, 1, 0, 0, 0, 0, 0, 0;
         0, 0, 0, 1, 0, 0, 0, 0;
         0, 0, 0, 0, 0, 1, 0, 0;
         0, 0, 0, 0, 0, 0, 0, 1;
         0, 0, 3 / 5, 0, 0, 0, 4 / 5, 0;
         0, 0, -4 / 5, 0, 0, 0, 3 / 5, 0])
  else none

theorem negatedSystem_error (v : Vec ℝ 8) :
    rowsError negatedSystem v = 8 * (v 0 ^ 2 + v 4 ^ 2) + 4 * (v 1 ^ 2 + v 3 ^ 2 + v 5 ^ 2 + v 7 ^ 2) := by
  simp [rowsError, negatedSystem, system, allPairs, demoEyes, negatedEyes, demoHands, relForward, relBackward, Pose.mul, Pose.inv,
    Quat.mul, Quat.conj, Quat.rotate, toDual, pairRows, dotProduct, Fin.sum_univ_eight]
  ring

theorem negatedSolver_correct : SingularValueSolver negatedSolver := by
  intro rows s vt hs
  unfold negatedSolver at hs
  split at hs
  · rename_i hrows
    obtain ⟨rfl, rfl⟩ := Prod.mk.inj (Option.some.inj hs)
    subst hrows
    have h2 : (2 : ℝ) ≤ Real.sqrt 8 := Real.le_sqrt_of_sq_le (by norm_num)
    refine ⟨?_, ?_, ?_, ?_⟩
    · intro i j hij
      fin_cases i <;> fin_cases j <;> first | (simp; done) | (simpa using h2) | (exact absurd hij (by decide))
    · intro k
      fin_cases k <;> simp
    · ext i j
      rw [Matrix.mul_apply, Fin.sum_univ_eight]
      fin_cases i <;> fin_cases j <;> simp <;> norm_num
    · intro v
      rw [negatedSystem_error, Fin.sum_univ_eight]
      have := Real.sq_sqrt (show (0 : ℝ) ≤ 8 by norm_num)
      simp [dotProduct, Fin.sum_univ_eight, mul_pow, this]
      ring
  · simp at hs

/-- **C40** (refuted for poses that are only the same rotations) The sign of the quaternions is not resolved: with one quaternion
negated, which is the same rotation, no correct decomposition leads to the right pose, and there is one that leads to a
half turn about the y axis instead of no rotation at all. -/
theorem C40_sign_refuted : ∃ (eyes hands : List (Pose ℝ)) (X W : Pose ℝ),
    UnitQ X.rotation ∧ (∀ e ∈ eyes, UnitQ e.rotation) ∧ (∀ h ∈ hands, UnitQ h.rotation) ∧
    List.Forall₂ (fun e h => SameRotation (e.mul (X.mul h)).rotation W.rotation ∧
      (e.mul (X.mul h)).translation = W.translation) eyes hands ∧
    (∀ gesvd, SingularValueSolver gesvd → ∀ P, estimate gesvd eyes hands = some P → ¬ SameRotation P.rotation X.rotation) ∧
    ∃ gesvd, SingularValueSolver gesvd ∧ ∃ P, estimate gesvd eyes hands = some P := by
  have hvan : ∀ r ∈ negatedSystem, r ⬝ᵥ toDual ⟨⟨0, 1, 0, 0⟩, 0⟩ = 0 ∧ r ⬝ᵥ shift (toDual ⟨⟨0, 1, 0, 0⟩, 0⟩) = 0 := by
    intro r hr
    constructor
    · refine (rowsError_eq_zero negatedSystem _).mp ?_ r hr
      rw [negatedSystem_error]; simp [toDual]
    · refine (rowsError_eq_zero negatedSystem _).mp ?_ r hr
      rw [negatedSystem_error]; simp [toDual, shift]
  refine ⟨negatedEyes, demoHands, Pose.one, Pose.one, by simp [UnitQ, Pose.one, Quat.one], by simp [negatedEyes, UnitQ],
    demo_consistent.2.1, ?_, ?_, negatedSolver, negatedSolver_correct, ?_⟩
  · simp [negatedEyes, demoHands, demoEyes, SameRotation, Pose.mul, Pose.inv, Pose.one, Quat.mul, Quat.one, Quat.conj, Quat.rotate]
  · intro gesvd hg P hP hsame
    have := (estimateDual_exact hg (X := ⟨⟨0, 1, 0, 0⟩, 0⟩) (by simp [UnitQ]) hvan hP).1
    rcases this with h | h <;> rcases hsame with h' | h'
    · rw [h] at h'
      have := congrArg Quat.w h'
      simp [Pose.one, Quat.one] at this
    · rw [h] at h'
      simp [Pose.one, Quat.one] at h'
    · rw [h'] at h
      simp [Pose.one, Quat.one] at h
    · have := h.2.2.2.symm.trans h'.2.2.2
      simp [Pose.one, Quat.one] at this
  · have hs : ∀ vt s, negatedSolver negatedSystem = some (s, vt) → estimate negatedSolver negatedEyes demoHands =
        if s 7 > 1e-2 ∨ s 6 > 1e-2 ∨ s 5 < 1e-2 then none else solve vt := by
      intro vt s h
      unfold estimate estimateDual
      unfold negatedSystem at h
      simp only [h]
    rw [hs _ _ (if_pos rfl), if_neg (by simp; norm_num)]
    have h6 := solve_of_span (x := toDual ⟨⟨0, 1, 0, 0⟩, 0⟩) (toDual_unit _ (by simp [UnitQ]))
      (vt := !![1, 0, 0, 0, 0, 0, 0, 0;
         0, 0, 0, 0, 1, 0, 0, 0;
         0, 1, 0, 0, 0, 0, 0, 0;
         0, 0, 0, 1, 0, 0, 0, 0;
         0, 0, 0, 0, 0, 1, 0, 0;
         0, 0, 0, 0, 0, 0, 0, 1;
         0, 0, 3 / 5, 0, 0, 0, 4 / 5, 0;
         0, 0, -4 / 5, 0, 0, 0, 3 / 5, 0]) (a1 := 3 / 5) (b1 := 4 / 5) (a2 := -4 / 5) (b2 := 3 / 5)
      (by ext i; fin_cases i <;> simp [toDual, shift]) (by ext i; fin_cases i <;> simp [toDual, shift]) (by norm_num)
    rw [← Option.isSome_iff_exists, Option.isSome_iff_ne_none, Ne, h6.1]
    norm_num

end Ubitrack.HandEye

import Verif.Model.TsaiLenz
import Verif.Spec.HandEyePairs
import Verif.Proofs.LeastSquares
import Verif.Proofs.LU
import Verif.Props.RotationMatrix
import Verif.Props.Pose
import Verif.Props.MatrixOperations
import Verif.Props.FundamentalMatrix

/-!
# C68: hand-eye calibration after Tsai and Lenz
-/

namespace Ubitrack.TsaiLenz
open Spec
open scoped Matrix

/-! ## The rotation formulas -/

lemma sqrt_sq' (x : ℝ) : Real.sqrt (x * x) = |x| := by rw [← sq]; exact Real.sqrt_sq_eq_abs x

/-- The vector part of the unit quaternion with positive scalar part is read from the rotation matrix. -/
lemma getQuaternion_pos (q : Quat ℝ) (hq : UnitQ q) (hw : 0 < q.w) : getQuaternion q.toMatrix = ![q.x, q.y, q.z] := by
  obtain ⟨x, y, z, w⟩ := q
  simp only [UnitQ] at hq hw
  set M := (⟨x, y, z, w⟩ : Quat ℝ).toMatrix with hM
  have e0 : (1 + M 0 0 + M 1 1 + M 2 2) / 4 = w * w := by
    simp only [hM, Quat.toMatrix, Matrix.of_apply, Matrix.cons_val]
    linear_combination -hq
  have e1 : (1 + M 0 0 - M 1 1 - M 2 2) / 4 = x * x := by
    simp only [hM, Quat.toMatrix, Matrix.of_apply, Matrix.cons_val]
    ring
  have e2 : (1 - M 0 0 + M 1 1 - M 2 2) / 4 = y * y := by
    simp only [hM, Quat.toMatrix, Matrix.of_apply, Matrix.cons_val]
    ring
  have e3 : (1 - M 0 0 - M 1 1 + M 2 2) / 4 = z * z := by
    simp only [hM, Quat.toMatrix, Matrix.of_apply, Matrix.cons_val]
    ring
  have o0 : (M 2 1 - M 1 2) / 4 = x * w := by
    simp only [hM, Quat.toMatrix, Matrix.of_apply, Matrix.cons_val]
    ring
  have o1 : (M 0 2 - M 2 0) / 4 = y * w := by
    simp only [hM, Quat.toMatrix, Matrix.of_apply, Matrix.cons_val]
    ring
  have o2 : (M 1 0 - M 0 1) / 4 = z * w := by
    simp only [hM, Quat.toMatrix, Matrix.of_apply, Matrix.cons_val]
    ring
  have o3 : (M 1 0 + M 0 1) / 4 = x * y := by
    simp only [hM, Quat.toMatrix, Matrix.of_apply, Matrix.cons_val]
    ring
  have o4 : (M 0 2 + M 2 0) / 4 = x * z := by
    simp only [hM, Quat.toMatrix, Matrix.of_apply, Matrix.cons_val]
    ring
  have o5 : (M 2 1 + M 1 2) / 4 = y * z := by
    simp only [hM, Quat.toMatrix, Matrix.of_apply, Matrix.cons_val]
    ring
  simp only [getQuaternion, e0, e1, e2, e3, o0, o1, o2, o3, o4, o5]
  clear_value M
  have hpos : ∀ c : Fin 4, (∀ i, (![w * w, x * x, y * y, z * z] : Vec ℝ 4) i ≤ (![w * w, x * x, y * y, z * z] : Vec ℝ 4) c) →
      0 < (![w * w, x * x, y * y, z * z] : Vec ℝ 4) c := by
    intro c hc
    have h0 := hc 0
    simp only [Matrix.cons_val] at h0
    have := mul_pos hw hw
    linarith
  generalize hc : (if (![w * w, x * x, y * y, z * z] : Vec ℝ 4) (if (![w * w, x * x, y * y, z * z] : Vec ℝ 4) (if (![w * w, x * x, y * y, z * z] : Vec ℝ 4) 0 <
      (![w * w, x * x, y * y, z * z] : Vec ℝ 4) 1 then 1 else 0) < (![w * w, x * x, y * y, z * z] : Vec ℝ 4) 2 then 2 else
      if (![w * w, x * x, y * y, z * z] : Vec ℝ 4) 0 < (![w * w, x * x, y * y, z * z] : Vec ℝ 4) 1 then 1 else 0) <
      (![w * w, x * x, y * y, z * z] : Vec ℝ 4) 3 then (3 : Fin 4) else if (![w * w, x * x, y * y, z * z] : Vec ℝ 4) (if (![w * w, x * x, y * y, z * z] : Vec ℝ 4) 0 <
      (![w * w, x * x, y * y, z * z] : Vec ℝ 4) 1 then 1 else 0) < (![w * w, x * x, y * y, z * z] : Vec ℝ 4) 2 then 2 else
      if (![w * w, x * x, y * y, z * z] : Vec ℝ 4) 0 < (![w * w, x * x, y * y, z * z] : Vec ℝ 4) 1 then 1 else 0) = c
  have hmax : 0 < (![w * w, x * x, y * y, z * z] : Vec ℝ 4) c := by
    apply hpos
    intro i
    rw [← hc]
    generalize (![w * w, x * x, y * y, z * z] : Vec ℝ 4) = v
    split_ifs <;> fin_cases i <;> simp only [Fin.zero_eta, Fin.mk_one, Fin.reduceFinMk] at * <;> linarith
  clear hc hpos
  fin_cases c
  · simp only [Fin.zero_eta, Matrix.cons_val, if_true] at hmax ⊢
    rw [sqrt_sq', abs_of_pos hw, if_neg (not_lt.mpr hw.le)]
    simp only [Matrix.cons_val]
    rw [mul_div_cancel_right₀ _ hw.ne', mul_div_cancel_right₀ _ hw.ne', mul_div_cancel_right₀ _ hw.ne']
  · simp only [Fin.mk_one, Fin.isValue, one_ne_zero, if_false, if_true, Matrix.cons_val] at hmax ⊢
    have hx : x ≠ 0 := fun h => by simp [h] at hmax
    rw [sqrt_sq']
    rcases lt_or_gt_of_ne hx with h | h
    · rw [abs_of_neg h, if_pos (by rw [mul_div_assoc, mul_comm, div_mul_eq_mul_div]; exact div_neg_of_neg_of_pos (by nlinarith) (by linarith))]
      simp only [Pi.neg_apply, Matrix.cons_val]
      funext i
      fin_cases i <;> simp <;> field_simp
    · rw [abs_of_pos h, if_neg (not_lt.mpr (div_nonneg (mul_pos h hw).le h.le))]
      simp only [Matrix.cons_val]
      funext i
      fin_cases i <;> simp <;> field_simp
  · simp only [Fin.reduceFinMk, Fin.isValue, Fin.reduceEq, if_false, if_true, Matrix.cons_val] at hmax ⊢
    have hx : y ≠ 0 := fun h => by simp [h] at hmax
    rw [sqrt_sq']
    rcases lt_or_gt_of_ne hx with h | h
    · rw [abs_of_neg h, if_pos (div_neg_of_neg_of_pos (by nlinarith) (by linarith))]
      simp only [Pi.neg_apply, Matrix.cons_val]
      funext i
      fin_cases i <;> simp <;> field_simp
    · rw [abs_of_pos h, if_neg (not_lt.mpr (div_nonneg (mul_pos h hw).le h.le))]
      simp only [Matrix.cons_val]
      funext i
      fin_cases i <;> simp <;> field_simp
  · simp only [Fin.reduceFinMk, Fin.isValue, Fin.reduceEq, if_false, Matrix.cons_val] at hmax ⊢
    have hx : z ≠ 0 := fun h => by simp [h] at hmax
    rw [sqrt_sq']
    rcases lt_or_gt_of_ne hx with h | h
    · rw [abs_of_neg h, if_pos (div_neg_of_neg_of_pos (by nlinarith) (by linarith))]
      simp only [Pi.neg_apply, Matrix.cons_val]
      funext i
      fin_cases i <;> simp <;> field_simp
    · rw [abs_of_pos h, if_neg (not_lt.mpr (div_nonneg (mul_pos h hw).le h.le))]
      simp only [Matrix.cons_val]
      funext i
      fin_cases i <;> simp <;> field_simp

/-- The unit quaternion with scalar part positive whose vector part is `p` times the scalar part. -/
noncomputable def modified (p : Vec ℝ 3) : Quat ℝ :=
  let d := Real.sqrt (1 + (p 0 * p 0 + p 1 * p 1 + p 2 * p 2))
  ⟨p 0 / d, p 1 / d, p 2 / d, 1 / d⟩

lemma modified_unit (p : Vec ℝ 3) : UnitQ (modified p) ∧ 0 < (modified p).w := by
  have h : 0 < 1 + (p 0 * p 0 + p 1 * p 1 + p 2 * p 2) := by nlinarith [sq_nonneg (p 0), sq_nonneg (p 1), sq_nonneg (p 2)]
  have hs := Real.sq_sqrt h.le
  have hp := Real.sqrt_pos.mpr h
  constructor
  · simp only [UnitQ, modified]
    generalize Real.sqrt (1 + (p 0 * p 0 + p 1 * p 1 + p 2 * p 2)) = d at *
    field_simp
    linear_combination -hs
  · exact one_div_pos.mpr hp

lemma getRcg_eq (p : Vec ℝ 3) : getRcg p = (modified p).toMatrix := by
  have h : 0 < 1 + (p 0 * p 0 + p 1 * p 1 + p 2 * p 2) := by nlinarith [sq_nonneg (p 0), sq_nonneg (p 1), sq_nonneg (p 2)]
  have hs := Real.sq_sqrt h.le
  have hp := Real.sqrt_pos.mpr h
  obtain ⟨hu, hw⟩ := modified_unit p
  simp only [getRcg]
  set d := Real.sqrt (1 + (p 0 * p 0 + p 1 * p 1 + p 2 * p 2)) with hd
  have e : (fun i => 2 * p i / d : Vec ℝ 3) = ![2 * (modified p).x, 2 * (modified p).y, 2 * (modified p).z] := by
    funext i
    fin_cases i <;> simp [modified, ← hd] <;> ring
  rw [e]
  generalize modified p = q at hu hw
  obtain ⟨x, y, z, w⟩ := q
  simp only [UnitQ] at hu hw
  have hl : Real.sqrt (4 - ((2 * x) * (2 * x) + (2 * y) * (2 * y) + (2 * z) * (2 * z))) = 2 * w := by
    rw [show 4 - ((2 * x) * (2 * x) + (2 * y) * (2 * y) + (2 * z) * (2 * z)) = (2 * w) * (2 * w) by linear_combination -4 * hu, sqrt_sq', abs_of_pos (by linarith)]
  simp only [getMatrix, Matrix.cons_val, hl]
  ext i j
  fin_cases i <;> fin_cases j <;> simp only [Matrix.add_apply, Matrix.smul_apply, Matrix.of_apply, skew, Quat.toMatrix, Matrix.cons_val, smul_eq_mul,
    Matrix.one_apply, Fin.zero_eta, Fin.mk_one, Fin.reduceFinMk, Fin.isValue, Fin.reduceEq, zero_ne_one, one_ne_zero, if_true, if_false] <;>
    norm_num <;> ring

/-- The modified rotation vector `v / w` of a unit quaternion gives back its rotation matrix. -/
lemma getRcg_exact (x : Quat ℝ) (hx : UnitQ x) (hw : x.w ≠ 0) : getRcg ![x.x / x.w, x.y / x.w, x.z / x.w] = x.toMatrix := by
  rw [getRcg_eq]
  obtain ⟨a, b, c, w⟩ := x
  simp only [UnitQ] at hx hw
  have hd : Real.sqrt (1 + (a / w * (a / w) + b / w * (b / w) + c / w * (c / w))) = 1 / |w| := by
    rw [show 1 + (a / w * (a / w) + b / w * (b / w) + c / w * (c / w)) = (1 / w) * (1 / w) by field_simp; linear_combination hx, sqrt_sq', abs_div, abs_one]
  simp only [modified, Matrix.cons_val, hd]
  rcases lt_or_gt_of_ne hw with h | h
  · rw [abs_of_neg h]
    apply Quat.sameRotation_toMatrix
    right
    refine ⟨?_, ?_, ?_, ?_⟩ <;> simp <;> field_simp
  · rw [abs_of_pos h]
    apply Quat.sameRotation_toMatrix
    left
    congr 1 <;> field_simp

/-! ## The linear systems -/

/-- A system with independent columns and an exact solution has this solution as result. -/
lemma solves_exact {gels : List (Vec ℝ 3 × ℝ) → Vec ℝ 3} (hg : SolvesFullRank gels) {rows : List (Vec ℝ 3 × ℝ)} (hr : FullRank rows) {x : Vec ℝ 3}
    (hx : ∀ r ∈ rows, r.1 ⬝ᵥ x = r.2) : gels rows = x := by
  have h0 : systemError rows x = 0 := by
    rw [systemError, List.map_congr_left (g := fun _ => (0 : ℝ)) (fun r h => by rw [hx r h]; ring)]
    simp
  have h1 := hg rows hr x
  rw [h0] at h1
  have h2 : ∀ r ∈ rows, r.1 ⬝ᵥ gels rows = r.2 := by
    intro r hr'
    have hle : (r.1 ⬝ᵥ gels rows - r.2) ^ 2 ≤ systemError rows (gels rows) := by
      rw [systemError]
      refine List.single_le_sum ?_ _ (List.mem_map_of_mem (f := fun r => (r.1 ⬝ᵥ gels rows - r.2) ^ 2) hr')
      intro y hy
      obtain ⟨r, -, rfl⟩ := List.mem_map.mp hy
      exact sq_nonneg _
    have : (r.1 ⬝ᵥ gels rows - r.2) ^ 2 = 0 := le_antisymm (hle.trans h1) (sq_nonneg _)
    have := pow_eq_zero_iff (two_ne_zero) |>.mp this
    linarith
  have h3 := hr (gels rows - x) (fun r hr' => by rw [dotProduct_sub, h2 r hr', hx r hr', sub_self])
  exact sub_eq_zero.mp h3

lemma mem_rows (s : Mat ℝ 3 3 × Vec ℝ 3) (r : Vec ℝ 3 × ℝ) : r ∈ rows s ↔ ∃ i, r = (s.1 i, s.2 i) := by
  simp [rows, eq_comm]

lemma rows_exact {tc : List (Mat ℝ 4 4 × Mat ℝ 4 4)} {f : Mat ℝ 4 4 × Mat ℝ 4 4 → Mat ℝ 3 3 × Vec ℝ 3} {x : Vec ℝ 3}
    (h : ∀ t ∈ tc, (f t).1 *ᵥ x = (f t).2) : ∀ r ∈ tc.flatMap fun t => rows (f t), r.1 ⬝ᵥ x = r.2 := by
  intro r hr
  obtain ⟨t, ht, hr⟩ := List.mem_flatMap.mp hr
  obtain ⟨i, rfl⟩ := (mem_rows _ _).mp hr
  exact congrFun (h t ht) i

lemma rows_kernel {tc : List (Mat ℝ 4 4 × Mat ℝ 4 4)} {f : Mat ℝ 4 4 × Mat ℝ 4 4 → Mat ℝ 3 3 × Vec ℝ 3} {u : Vec ℝ 3}
    (h : ∀ r ∈ tc.flatMap fun t => rows (f t), r.1 ⬝ᵥ u = 0) : ∀ t ∈ tc, (f t).1 *ᵥ u = 0 := by
  intro t ht
  funext i
  exact h ((f t).1 i, (f t).2 i) (List.mem_flatMap.mpr ⟨t, ht, (mem_rows _ _).mpr ⟨i, rfl⟩⟩)

lemma skew_mulVec (a u : Vec ℝ 3) : skew a *ᵥ u = crossProduct a u := by
  funext i
  fin_cases i <;> simp [skew, Matrix.mulVec, dotProduct, Fin.sum_univ_three, cross_apply] <;> ring

/-- Conjugate rotations have the same scalar part. -/
lemma scalar_eq (g x c : Quat ℝ) (hx : UnitQ x) (h : g.mul x = x.mul c) : g.w = c.w := by
  obtain ⟨gx, gy, gz, gw⟩ := g
  obtain ⟨a, b, d, w⟩ := x
  obtain ⟨cx, cy, cz, cw⟩ := c
  simp only [Quat.mul, Quat.mk.injEq] at h
  obtain ⟨h1, h2, h3, h4⟩ := h
  simp only [UnitQ] at hx
  linear_combination a * h1 + b * h2 + d * h3 + w * h4 - (gw - cw) * hx

/-- The equation of Tsai and Lenz: if `g x = x c`, then the modified vector of `x` solves the system of the pair. -/
lemma rotation_equation (g x c : Quat ℝ) (hx : UnitQ x) (h : g.mul x = x.mul c) :
    crossProduct (axis g + axis c) (axis x) = x.w • (axis c - axis g) := by
  have hz := scalar_eq g x c hx h
  obtain ⟨gx, gy, gz, gw⟩ := g
  obtain ⟨a, b, d, w⟩ := x
  obtain ⟨cx, cy, cz, cw⟩ := c
  simp only [Quat.mul, Quat.mk.injEq] at h
  obtain ⟨h1, h2, h3, h4⟩ := h
  simp only at hz
  subst hz
  funext i
  fin_cases i
  · simp only [axis, cross_apply, Pi.add_apply, Pi.smul_apply, Pi.sub_apply, Matrix.cons_val, smul_eq_mul, Fin.zero_eta]
    linear_combination h1
  · simp only [axis, cross_apply, Pi.add_apply, Pi.smul_apply, Pi.sub_apply, Matrix.cons_val, smul_eq_mul, Fin.mk_one]
    linear_combination h2
  · simp only [axis, cross_apply, Pi.add_apply, Pi.smul_apply, Pi.sub_apply, Matrix.cons_val, smul_eq_mul, Fin.reduceFinMk]
    linear_combination h3

/-- A vector parallel to two vectors that are not parallel is zero. -/
lemma parallel_both {p q u : Vec ℝ 3} (hp : crossProduct p u = 0) (hq : crossProduct q u = 0) (h : crossProduct p q ≠ 0) : u = 0 := by
  have p0 := congrFun hp 0
  have p1 := congrFun hp 1
  have p2 := congrFun hp 2
  have q0 := congrFun hq 0
  have q1 := congrFun hq 1
  have q2 := congrFun hq 2
  simp only [cross_apply, Matrix.cons_val, Pi.zero_apply] at p0 p1 p2 q0 q1 q2
  have key : ∀ i j, (u i) * (crossProduct p q j) = 0 := by
    intro i j
    fin_cases i <;> fin_cases j <;> simp only [cross_apply, Matrix.cons_val, Fin.zero_eta, Fin.mk_one, Fin.reduceFinMk]
    · linear_combination -q 2 * p2 - q 1 * p1 - p 0 * q0
    · linear_combination q 0 * p1 - p 0 * q1
    · linear_combination q 0 * p2 - p 0 * q2
    · linear_combination q 1 * p0 - p 1 * q0
    · linear_combination -q 0 * p0 - q 2 * p2 - p 1 * q1
    · linear_combination q 1 * p2 - p 1 * q2
    · linear_combination q 2 * p0 - p 2 * q0
    · linear_combination q 2 * p1 - p 2 * q1
    · linear_combination -q 1 * p1 - q 0 * p0 - p 2 * q2
  by_contra hu
  obtain ⟨i, hi⟩ := Function.ne_iff.mp hu
  apply h
  funext j
  exact (mul_eq_zero.mp (key i j)).resolve_left hi

/-- If the sums of the axes are parallel, then the axes of the hand are parallel. -/
lemma sums_not_parallel {g c g' c' x : Quat ℝ} (hw : x.w ≠ 0) (h : crossProduct (axis g + axis c) (axis x) = x.w • (axis c - axis g))
    (h' : crossProduct (axis g' + axis c') (axis x) = x.w • (axis c' - axis g')) (hn : crossProduct (axis g) (axis g') ≠ 0) :
    crossProduct (axis g + axis c) (axis g' + axis c') ≠ 0 := by
  intro hz
  apply hn
  set m := axis g + axis c with hm
  set m' := axis g' + axis c' with hm'
  set v := axis x
  have e : (2 * x.w) • axis g = x.w • m + crossProduct v m := by
    rw [← cross_anticomm, h, hm]
    module
  have e' : (2 * x.w) • axis g' = x.w • m' + crossProduct v m' := by
    rw [← cross_anticomm, h', hm']
    module
  have key : crossProduct ((2 * x.w) • axis g) ((2 * x.w) • axis g') = 0 := by
    rw [e, e']
    have z0 := congrFun hz 0
    have z1 := congrFun hz 1
    have z2 := congrFun hz 2
    clear_value m m' v
    simp only [cross_apply, Matrix.cons_val, Pi.zero_apply] at z0 z1 z2
    funext i
    fin_cases i <;> simp only [cross_apply, Matrix.cons_val, Pi.zero_apply, Pi.add_apply, Pi.smul_apply, smul_eq_mul, Fin.zero_eta, Fin.mk_one,
      Fin.reduceFinMk]
    · linear_combination (x.w * x.w + v 0 * v 0) * z0 + (x.w * -v 2 + v 0 * v 1) * z1 + (x.w * v 1 + v 0 * v 2) * z2
    · linear_combination (x.w * v 2 + v 1 * v 0) * z0 + (x.w * x.w + v 1 * v 1) * z1 + (x.w * -v 0 + v 1 * v 2) * z2
    · linear_combination (x.w * -v 1 + v 2 * v 0) * z0 + (x.w * v 0 + v 2 * v 1) * z1 + (x.w * x.w + v 2 * v 2) * z2
  rw [map_smul, map_smul, LinearMap.smul_apply, smul_smul] at key
  exact (smul_eq_zero.mp key).resolve_left (by simp [hw])

/-- A vector that a rotation by less than a half turn leaves as it is, is parallel to the axis. -/
lemma fixed_parallel (q : Quat ℝ) (hq : UnitQ q) (hw : q.w ≠ 0) (u : Vec ℝ 3) (h : (q.toMatrix - 1) *ᵥ u = 0) : crossProduct (axis q) u = 0 := by
  obtain ⟨x, y, z, w⟩ := q
  simp only [UnitQ] at hq hw
  have e0 := congrFun h 0
  have e1 := congrFun h 1
  have e2 := congrFun h 2
  simp [Quat.toMatrix, Matrix.mulVec, dotProduct, Fin.sum_univ_three, Matrix.one_apply] at e0 e1 e2
  set a0 := y * u 2 - z * u 1 with h0
  set a1 := z * u 0 - x * u 2 with h1
  set a2 := x * u 1 - y * u 0 with h2
  have f0 : w * a0 + (y * a2 - z * a1) = 0 := by
    rw [h0, h1, h2]
    linear_combination e0 / 2 
  have f1 : w * a1 + (z * a0 - x * a2) = 0 := by
    rw [h0, h1, h2]
    linear_combination e1 / 2 
  have f2 : w * a2 + (x * a1 - y * a0) = 0 := by
    rw [h0, h1, h2]
    linear_combination e2 / 2 
  have hs : w * (a0 * a0 + a1 * a1 + a2 * a2) = 0 := by linear_combination a0 * f0 + a1 * f1 + a2 * f2
  have hs := (mul_eq_zero.mp hs).resolve_left hw
  have z0 : a0 = 0 := by nlinarith [mul_self_nonneg a0, mul_self_nonneg a1, mul_self_nonneg a2]
  have z1 : a1 = 0 := by nlinarith [mul_self_nonneg a0, mul_self_nonneg a1, mul_self_nonneg a2]
  have z2 : a2 = 0 := by nlinarith [mul_self_nonneg a0, mul_self_nonneg a1, mul_self_nonneg a2]
  funext i
  fin_cases i <;> simp only [axis, cross_apply, Matrix.cons_val, Pi.zero_apply, Fin.zero_eta, Fin.mk_one, Fin.reduceFinMk]
  · exact z0
  · exact z1
  · exact z2

lemma cross_signs {a a' p p' : Vec ℝ 3} (h : a = p ∨ a = -p) (h' : a' = p' ∨ a' = -p') (hn : crossProduct p p' ≠ 0) : crossProduct a a' ≠ 0 := by
  rcases h with rfl | rfl <;> rcases h' with rfl | rfl <;>
    simpa only [map_neg, LinearMap.neg_apply, neg_neg, neg_ne_zero, ne_eq, neg_eq_zero] using hn

/-! ## Relative poses -/

lemma block_pose (P : Pose ℝ) : block P.toMatrix4 = P.rotation.toMatrix := by
  ext i j
  fin_cases i <;> fin_cases j <;> simp [block, Pose.toMatrix4]

lemma lastColumn_pose (P : Pose ℝ) : lastColumn P.toMatrix4 = P.translation := by
  funext i
  fin_cases i <;> simp [lastColumn, Pose.toMatrix4]

lemma inverse_pose {invert : Mat ℝ 4 4 → Mat ℝ 4 4} (hi : ∀ A : Mat ℝ 4 4, A.det ≠ 0 → invert A * A = 1) (P : Pose ℝ) (hP : UnitQ P.rotation) :
    invert P.toMatrix4 = P.inv.toMatrix4 := by
  have h := hi _ (Epipolar.toMatrix4_det P hP)
  have h' := (C09_pose_matrix_product P P hP hP).2.2.1
  calc invert P.toMatrix4 = invert P.toMatrix4 * (P.toMatrix4 * P.inv.toMatrix4) := by rw [h', mul_one]
    _ = P.inv.toMatrix4 := by rw [← mul_assoc, h, one_mul]

def negQ (q : Quat ℝ) : Quat ℝ := ⟨-q.x, -q.y, -q.z, -q.w⟩

/-- What the code computes with a pair of relative poses. -/
structure Pair (x : Pose ℝ) (p : Vec ℝ 3) (t : Mat ℝ 4 4 × Mat ℝ 4 4) : Prop where
  ex : ∃ g c : Quat ℝ, UnitQ g ∧ 0 < g.w ∧ (axis g = p ∨ axis g = -p) ∧ getQuaternion (block t.1) = axis g ∧ getQuaternion (block t.2) = axis c ∧
    crossProduct (axis g + axis c) (axis x.rotation) = x.rotation.w • (axis c - axis g) ∧ block t.1 = g.toMatrix ∧
    (block t.1 - 1) *ᵥ x.translation = x.rotation.toMatrix *ᵥ lastColumn t.2 - lastColumn t.1

lemma exists_pos (q : Quat ℝ) (hq : UnitQ q) (hw : q.w ≠ 0) : ∃ q' : Quat ℝ, UnitQ q' ∧ 0 < q'.w ∧ (q' = q ∨ q' = negQ q) ∧ q'.toMatrix = q.toMatrix := by
  rcases lt_or_gt_of_ne hw with h | h
  · refine ⟨negQ q, ?_, by simpa [negQ] using h, Or.inr rfl, ?_⟩
    · simp only [UnitQ, negQ] at *
      linarith
    · exact Quat.sameRotation_toMatrix (Or.inr ⟨rfl, rfl, rfl, rfl⟩)
  · exact ⟨q, hq, h, Or.inl rfl, rfl⟩

lemma sameRotation_of_toMatrix {p q : Quat ℝ} (hp : UnitQ p) (hq : UnitQ q) (h : p.toMatrix = q.toMatrix) : SameRotation p q := by
  have h1 := C04_unique p.toMatrix p hp rfl
  have h2 := C04_unique p.toMatrix q hq h.symm
  generalize Quat.ofMatrix p.toMatrix = r at h1 h2
  rcases h1 with rfl | ⟨a1, a2, a3, a4⟩
  · exact h2
  · rcases h2 with rfl | ⟨b1, b2, b3, b4⟩
    · exact Or.inr ⟨by linarith, by linarith, by linarith, by linarith⟩
    · left
      ext <;> linarith

lemma pair_of_poses (g c x : Pose ℝ) (hg : UnitQ g.rotation) (hc : UnitQ c.rotation) (hx : UnitQ x.rotation) (hw : g.rotation.w ≠ 0)
    (h : g.toMatrix4 * x.toMatrix4 = x.toMatrix4 * c.toMatrix4) : Pair x (axis g.rotation) (g.toMatrix4, c.toMatrix4) := by
  rw [← (C09_pose_matrix_product g x hg hx).1, ← (C09_pose_matrix_product x c hx hc).1] at h
  have hb := congrArg block h
  have ht := congrArg lastColumn h
  rw [block_pose, block_pose] at hb
  rw [lastColumn_pose, lastColumn_pose] at ht
  have hs : SameRotation (g.rotation.mul x.rotation) (x.rotation.mul c.rotation) :=
    sameRotation_of_toMatrix (Quat.isUnit_mul hg hx) (Quat.isUnit_mul hx hc) hb
  have hwc : c.rotation.w = g.rotation.w ∨ c.rotation.w = -g.rotation.w := by
    rcases hs with hs | hs
    · exact Or.inl (scalar_eq _ _ _ hx hs).symm
    · right
      have : (negQ g.rotation).mul x.rotation = x.rotation.mul c.rotation := by
        obtain ⟨h1, h2, h3, h4⟩ := hs
        simp only [negQ, Quat.mul, Quat.mk.injEq] at *
        exact ⟨by linarith, by linarith, by linarith, by linarith⟩
      have := scalar_eq _ _ _ hx this
      simp only [negQ] at this
      exact this.symm
  have hwc' : c.rotation.w ≠ 0 := by
    rcases hwc with h | h <;> rw [h] <;> simpa using hw
  obtain ⟨g', hgu, hgp, hgs, hgm⟩ := exists_pos g.rotation hg hw
  obtain ⟨c', hcu, hcp, hcs, hcm⟩ := exists_pos c.rotation hc hwc'
  have heq : g'.mul x.rotation = x.rotation.mul c' := by
    have hs' : SameRotation (g'.mul x.rotation) (x.rotation.mul c') := by
      apply sameRotation_of_toMatrix (Quat.isUnit_mul hgu hx) (Quat.isUnit_mul hx hcu)
      rw [toMatrix_mul hgu hx, toMatrix_mul hx hcu, hgm, hcm, ← toMatrix_mul hg hx, ← toMatrix_mul hx hc]
      exact hb
    rcases hs' with h | ⟨h1, h2, h3, h4⟩
    · exact h
    · exfalso
      have : (negQ g').mul x.rotation = x.rotation.mul c' := by
        simp only [negQ, Quat.mul, Quat.mk.injEq] at *
        exact ⟨by linarith, by linarith, by linarith, by linarith⟩
      have := scalar_eq _ _ _ hx this
      simp only [negQ] at this
      linarith
  refine ⟨g', c', hgu, hgp, ?_, ?_, ?_, rotation_equation _ _ _ hx heq, ?_, ?_⟩
  · rcases hgs with rfl | rfl
    · exact Or.inl rfl
    · right
      funext i
      fin_cases i <;> simp [axis, negQ]
  · rw [block_pose, ← hgm]
    exact getQuaternion_pos g' hgu hgp
  · rw [block_pose, ← hcm]
    exact getQuaternion_pos c' hcu hcp
  · rw [block_pose, hgm]
  · rw [block_pose, lastColumn_pose, lastColumn_pose, Matrix.sub_mulVec, Matrix.one_mulVec]
    simp only [Pose.mul] at ht
    rw [← (C03_quaternion_to_matrix _ hg).1, ← (C03_quaternion_to_matrix _ hx).1] at ht
    rw [sub_eq_sub_iff_add_eq_add, ht]

/-! ## The loops -/

lemma mapM_some {α β : Type*} (l : List α) (f : α → Option β) (g : α → β) (h : ∀ a ∈ l, f a = some (g a)) : l.mapM f = some (l.map g) := by
  induction l with
  | nil => rfl
  | cons a l ih =>
    rw [List.mapM_cons, h a (by simp), ih (fun b hb => h b (by simp [hb]))]
    rfl

lemma mem_indexPairs (n : ℕ) (b : Bool) (p : ℕ × ℕ) : p ∈ indexPairs n b ↔ UsedPair n b p.1 p.2 := by
  obtain ⟨i, k⟩ := p
  simp only [indexPairs, List.mem_flatMap, List.mem_range, List.mem_map, List.mem_range'_1, Prod.mk.injEq, UsedPair]
  constructor
  · rintro ⟨i', hi', k', hk', rfl, rfl⟩
    cases b <;> simp at hk' ⊢ <;> omega
  · rintro ⟨h1, h2, h3⟩
    refine ⟨i, by omega, k, ?_, rfl, rfl⟩
    cases b <;> simp at h3 ⊢ <;> omega

variable {gels : List (Vec ℝ 3 × ℝ) → Vec ℝ 3} {invert : Mat ℝ 4 4 → Mat ℝ 4 4}

/-- The transformations of the loops for poses. -/
lemma fill_poses (hi : ∀ A : Mat ℝ 4 4, A.det ≠ 0 → invert A * A = 1) {n : ℕ} (hand eye : Fin n → Pose ℝ) (hh : ∀ i, UnitQ (hand i).rotation)
    (he : ∀ i, UnitQ (eye i).rotation) (b : Bool) :
    ∃ tc, fillTransformationVectors invert ((List.ofFn hand).map Pose.toMatrix4) ((List.ofFn eye).map Pose.toMatrix4) b = some tc ∧
      ∀ t, t ∈ tc ↔ ∃ i k : Fin n, UsedPair n b i k ∧
        t = (((hand k).inv.mul (hand i)).toMatrix4, ((eye k).mul (eye i).inv).toMatrix4) := by
  have hfun : ∀ i k : Fin n, (transformationG invert (hand i).toMatrix4 (hand k).toMatrix4, transformationC invert (eye i).toMatrix4 (eye k).toMatrix4) =
      (((hand k).inv.mul (hand i)).toMatrix4, ((eye k).mul (eye i).inv).toMatrix4) := by
    intro i k
    rw [transformationG, transformationC, inverse_pose hi _ (hh k), inverse_pose hi _ (he i),
      (C09_pose_matrix_product _ _ (Quat.isUnit_conj (hh k)) (hh i)).1, (C09_pose_matrix_product _ _ (he k) (Quat.isUnit_conj (he i))).1]
  let F : ℕ × ℕ → Mat ℝ 4 4 × Mat ℝ 4 4 := fun p => if h : p.1 < n ∧ p.2 < n then
    (((hand ⟨p.2, h.2⟩).inv.mul (hand ⟨p.1, h.1⟩)).toMatrix4, ((eye ⟨p.2, h.2⟩).mul (eye ⟨p.1, h.1⟩).inv).toMatrix4) else (0, 0)
  refine ⟨(indexPairs n b).map F, ?_, ?_⟩
  · rw [fillTransformationVectors, List.length_map, List.length_ofFn]
    apply mapM_some
    intro p hp
    have hu := (mem_indexPairs n b p).mp hp
    have hk : p.2 < n := hu.2.1
    have hi' : p.1 < n := hu.1.trans hk
    simp only [List.getElem?_map, List.getElem?_ofFn, hk, hi', dite_true, Option.map_some, F, and_self]
    exact congrArg some (hfun ⟨p.1, hi'⟩ ⟨p.2, hk⟩)
  · intro t
    simp only [List.mem_map, mem_indexPairs]
    constructor
    · rintro ⟨p, hu, rfl⟩
      have hk : p.2 < n := hu.2.1
      have hi' : p.1 < n := hu.1.trans hk
      exact ⟨⟨p.1, hi'⟩, ⟨p.2, hk⟩, hu, by simp [F, hk, hi']⟩
    · rintro ⟨i, k, hu, rfl⟩
      exact ⟨(i, k), hu, by simp [F, i.2, k.2]⟩

/-! ## The theorems -/

/-- **C68** Exact data: the camera is rigidly mounted on the hand with pose `X`, the object is fixed, and three or more pairs of poses are given. If
two of the compared hand motions turn about axes that are not parallel, none of them is a half turn, and the mounting itself is not a half turn, then the
result is the mounting: the translation exactly, the rotation up to the sign of the quaternion. Missing (refuted below): half turns. -/
theorem C68_exact_partial (hg : SolvesFullRank gels) (getrf : Mat ℝ 4 4 → Mat ℝ 4 4 × (Fin 4 → Fin 4)) (hrf : LUFactorisation getrf)
    (getri : Mat ℝ 4 4 → (Fin 4 → Fin 4) → Mat ℝ 4 4) (hri : LUInverse getri) {n : ℕ} (hn : 3 ≤ n) (hand eye : Fin n → Pose ℝ) (X : Pose ℝ)
    (hh : ∀ i, UnitQ (hand i).rotation) (he : ∀ i, UnitQ (eye i).rotation) (hX : UnitQ X.rotation) (hm : RigidlyMounted hand eye X)
    (useAllPairs : Bool) (h2 : TwoAxes hand useAllPairs) (hhalf : ∀ i k : Fin n, UsedPair n useAllPairs i k → (handTurn hand i k).w ≠ 0)
    (hXw : X.rotation.w ≠ 0) :
    ∃ P, handEyePoses gels (MatrixOperations.invertMatrix getrf getri) (List.ofFn hand) (List.ofFn eye) useAllPairs = some P ∧
      SameRotation P.rotation X.rotation ∧ P.translation = X.translation := by
  obtain ⟨tc, htc, hmem⟩ := fill_poses (fun A hA => (MatrixOperations.C60_inverse getrf hrf getri hri A hA).1) hand eye hh he useAllPairs
  have hpair : ∀ i k : Fin n, UsedPair n useAllPairs i k → Pair X (axis (handTurn hand i k))
      (((hand k).inv.mul (hand i)).toMatrix4, ((eye k).mul (eye i).inv).toMatrix4) := by
    intro i k hu
    refine pair_of_poses ((hand k).inv.mul (hand i)) ((eye k).mul (eye i).inv) X (Quat.isUnit_mul (Quat.isUnit_conj (hh k)) (hh i))
      (Quat.isUnit_mul (he k) (Quat.isUnit_conj (he i))) hX (hhalf i k hu) ?_
    rw [(C09_pose_matrix_product _ _ (Quat.isUnit_conj (hh k)) (hh i)).1, (C09_pose_matrix_product _ _ (he k) (Quat.isUnit_conj (he i))).1]
    obtain ⟨W, hW⟩ := hm
    have e1 := (C09_pose_matrix_product _ _ (hh k) (hh k)).2.1
    have e2 := (C09_pose_matrix_product _ _ (he i) (he i)).2.2.1
    calc (hand k).inv.toMatrix4 * (hand i).toMatrix4 * X.toMatrix4
        = (hand k).inv.toMatrix4 * ((hand i).toMatrix4 * X.toMatrix4 * (eye i).toMatrix4) * (eye i).inv.toMatrix4 := by
          simp only [mul_assoc, e2, mul_one]
      _ = (hand k).inv.toMatrix4 * ((hand k).toMatrix4 * X.toMatrix4 * (eye k).toMatrix4) * (eye i).inv.toMatrix4 := by rw [hW i, hW k]
      _ = X.toMatrix4 * ((eye k).toMatrix4 * (eye i).inv.toMatrix4) := by
          simp only [← mul_assoc, e1, one_mul]
  obtain ⟨i, k, i', k', hu, hu', hne⟩ := h2
  have hrot : gels (tc.flatMap fun h => rows (sidesRot h.1 h.2)) =
      ![X.rotation.x / X.rotation.w, X.rotation.y / X.rotation.w, X.rotation.z / X.rotation.w] := by
    apply solves_exact hg
    · intro u hu0
      have hker := rows_kernel (f := fun t => sidesRot t.1 t.2) hu0
      have hk1 := hker _ ((hmem _).mpr ⟨i, k, hu, rfl⟩)
      have hk2 := hker _ ((hmem _).mpr ⟨i', k', hu', rfl⟩)
      obtain ⟨g, c, -, -, hgs, hgq, hcq, heq, -, -⟩ := hpair i k hu
      obtain ⟨g', c', -, -, hgs', hgq', hcq', heq', -, -⟩ := hpair i' k' hu'
      simp only [sidesRot] at hk1 hk2 hgq hcq hgq' hcq'
      rw [hgq, hcq, skew_mulVec] at hk1
      rw [hgq', hcq', skew_mulVec] at hk2
      exact parallel_both hk1 hk2 (sums_not_parallel hXw heq heq' (cross_signs hgs hgs' hne))
    · apply rows_exact (f := fun t => sidesRot t.1 t.2)
      intro t ht
      obtain ⟨i, k, hu, rfl⟩ := (hmem t).mp ht
      obtain ⟨g, c, -, -, -, hgq, hcq, heq, -, -⟩ := hpair i k hu
      simp only [sidesRot] at hgq hcq ⊢
      rw [hgq, hcq, skew_mulVec]
      have hv : (![X.rotation.x / X.rotation.w, X.rotation.y / X.rotation.w, X.rotation.z / X.rotation.w] : Vec ℝ 3) =
          X.rotation.w⁻¹ • axis X.rotation := by
        funext i
        fin_cases i <;> simp [axis, div_eq_inv_mul]
      rw [hv, map_smul, heq, smul_smul, inv_mul_cancel₀ hXw, one_smul]
  have hR : computePcg gels tc = X.rotation.toMatrix := by
    rw [computePcg, hrot, getRcg_exact _ hX hXw]
  have ht : computeTcg gels tc X.rotation.toMatrix = X.translation := by
    apply solves_exact hg
    · intro u hu0
      have hker := rows_kernel (f := fun t => sidesTrans t.1 t.2 X.rotation.toMatrix) hu0
      have hk1 := hker _ ((hmem _).mpr ⟨i, k, hu, rfl⟩)
      have hk2 := hker _ ((hmem _).mpr ⟨i', k', hu', rfl⟩)
      obtain ⟨g, c, hgu, hgp, hgs, -, -, -, hgb, -⟩ := hpair i k hu
      obtain ⟨g', c', hgu', hgp', hgs', -, -, -, hgb', -⟩ := hpair i' k' hu'
      simp only [sidesTrans] at hk1 hk2 hgb hgb'
      rw [hgb] at hk1
      rw [hgb'] at hk2
      exact parallel_both (fixed_parallel g hgu hgp.ne' u hk1) (fixed_parallel g' hgu' hgp'.ne' u hk2) (cross_signs hgs hgs' hne)
    · apply rows_exact (f := fun t => sidesTrans t.1 t.2 X.rotation.toMatrix)
      intro t ht
      obtain ⟨i, k, hu, rfl⟩ := (hmem t).mp ht
      obtain ⟨g, c, -, -, -, -, -, -, -, htr⟩ := hpair i k hu
      exact htr
  refine ⟨⟨Quat.ofMatrix (computePcg gels tc), computeTcg gels tc (computePcg gels tc)⟩, ?_, ?_, ?_⟩
  · rw [handEyePoses, handEye, if_neg (by simp), if_neg (by simp; omega), htc]
    rfl
  · rw [hR]
    exact C04_matrix_to_quaternion _ hX
  · rw [hR, ht]

/-- LAPACK routines with the contract exist. -/
theorem exists_solvesFullRank (n : ℕ) : ∃ gels : List (Vec ℝ n × ℝ) → Vec ℝ n, SolvesFullRank gels := by
  obtain ⟨gels, h1, h2⟩ := exists_leastSquaresSolver n
  refine ⟨fun rows => (gels rows).getD 0, fun rows hr y => ?_⟩
  obtain ⟨x, hx⟩ := h2 rows hr
  simp only [hx, Option.getD_some]
  exact h1 rows x hx y

/-- **C68** Whatever the data and whatever the linear solver does: with three or more pairs, a returned rotation is a unit quaternion and never a half
turn. -/
theorem C68_result_rotation (hand eye : List (Mat ℝ 4 4)) (hn : 3 ≤ eye.length) (useAllPairs : Bool) (P : Pose ℝ)
    (h : handEye gels invert hand eye useAllPairs = some P) : UnitQ P.rotation ∧ P.rotation.w ≠ 0 := by
  rw [handEye] at h
  split_ifs at h with h1 h2
  · omega
  · obtain ⟨tc, -, h⟩ := Option.bind_eq_some_iff.mp h
    have h : (⟨Quat.ofMatrix (computePcg gels tc), computeTcg gels tc (computePcg gels tc)⟩ : Pose ℝ) = P := by simpa using h
    rw [← h]
    simp only
    rw [computePcg, getRcg_eq]
    generalize gels _ = p
    obtain ⟨hu, hw⟩ := modified_unit p
    have hs := C04_matrix_to_quaternion _ hu
    refine ⟨Quat.unit_of_sameRotation hs hu, ?_⟩
    rcases hs with hs | hs
    · rw [hs]
      exact hw.ne'
    · rw [hs.2.2.2]
      simpa using hw.ne'

/-- **C68** Lists of different lengths are refused; with fewer than three pairs the result is the identity pose. -/
theorem C68_too_few (hand eye : List (Mat ℝ 4 4)) (useAllPairs : Bool) :
    (hand.length ≠ eye.length → handEye gels invert hand eye useAllPairs = none) ∧
      (hand.length = eye.length → eye.length < 3 → handEye gels invert hand eye useAllPairs = some Pose.one) := by
  constructor
  · intro h
    rw [handEye, if_pos (Ne.symm h)]
  · intro h1 h2
    rw [handEye, if_neg (by simp [h1]), if_pos (by omega)]
    rfl

/-- Poses of the eye for the examples. -/
noncomputable def exEye : Fin 3 → Pose ℝ :=
  ![⟨⟨0, 0, 0, 1⟩, ![0, 0, 0]⟩, ⟨⟨3 / 5, 0, 0, 4 / 5⟩, ![1, 0, 0]⟩, ⟨⟨0, 3 / 5, 0, 4 / 5⟩, ![0, 2, 1]⟩]

/-- The hand poses that belong to the poses of the eye and the mounting. -/
noncomputable def exHand (X : Pose ℝ) (eye : Fin 3 → Pose ℝ) : Fin 3 → Pose ℝ := fun i => (X.mul (eye i)).inv

lemma exEye_unit (i : Fin 3) : UnitQ (exEye i).rotation := by
  fin_cases i <;> simp [exEye, UnitQ] <;> norm_num

lemma exHand_unit {X : Pose ℝ} (hX : UnitQ X.rotation) {eye : Fin 3 → Pose ℝ} (he : ∀ i, UnitQ (eye i).rotation) (i : Fin 3) :
    UnitQ (exHand X eye i).rotation := Quat.isUnit_conj (Quat.isUnit_mul hX (he i))

lemma exHand_mounted {X : Pose ℝ} (hX : UnitQ X.rotation) {eye : Fin 3 → Pose ℝ} (he : ∀ i, UnitQ (eye i).rotation) :
    RigidlyMounted (exHand X eye) eye X := by
  refine ⟨1, fun i => ?_⟩
  rw [mul_assoc, ← (C09_pose_matrix_product X (eye i) hX (he i)).1]
  exact (C09_pose_matrix_product (X.mul (eye i)) (X.mul (eye i)) (Quat.isUnit_mul hX (he i)) (Quat.isUnit_mul hX (he i))).2.1

lemma exHand_halfTurn (X : Pose ℝ) (hX : UnitQ X.rotation) (b : Bool) (i k : Fin 3) (h : UsedPair 3 b i k) : (handTurn (exHand X exEye) i k).w ≠ 0 := by
  have h1 := h.1
  obtain ⟨⟨x, y, z, w⟩, t⟩ := X
  simp only [UnitQ] at hX
  have : (handTurn (exHand ⟨⟨x, y, z, w⟩, t⟩ exEye) i k).w = ((exEye k).rotation.mul (exEye i).rotation.conj).w := by
    simp only [handTurn, exHand, Pose.inv, Pose.mul, Quat.mul, Quat.conj]
    linear_combination ((exEye k).rotation.x * (exEye i).rotation.x + (exEye k).rotation.y * (exEye i).rotation.y +
      (exEye k).rotation.z * (exEye i).rotation.z + (exEye k).rotation.w * (exEye i).rotation.w) * hX
  rw [this]
  fin_cases i <;> fin_cases k <;> simp at h1 <;> simp [exEye, Quat.mul, Quat.conj] <;> norm_num

/-- The hypotheses of `C68_exact_partial` are met by concrete data. -/
example (b : Bool) : ∃ (gels : List (Vec ℝ 3 × ℝ) → Vec ℝ 3) (getrf : Mat ℝ 4 4 → Mat ℝ 4 4 × (Fin 4 → Fin 4))
    (getri : Mat ℝ 4 4 → (Fin 4 → Fin 4) → Mat ℝ 4 4) (hand eye : Fin 3 → Pose ℝ) (X : Pose ℝ), SolvesFullRank gels ∧ LUFactorisation getrf ∧
    LUInverse getri ∧ (∀ i, UnitQ (hand i).rotation) ∧ (∀ i, UnitQ (eye i).rotation) ∧ UnitQ X.rotation ∧ RigidlyMounted hand eye X ∧
    TwoAxes hand b ∧ (∀ i k : Fin 3, UsedPair 3 b i k → (handTurn hand i k).w ≠ 0) ∧ X.rotation.w ≠ 0 := by
  obtain ⟨gels, h1⟩ := exists_solvesFullRank 3
  obtain ⟨getrf, h2⟩ := exists_luFactorisation 4
  obtain ⟨getri, h3⟩ := MatrixOperations.exists_luInverse 4
  have hX : UnitQ (⟨⟨0, 0, 3 / 5, 4 / 5⟩, ![1, 2, 3]⟩ : Pose ℝ).rotation := by simp only [UnitQ]; norm_num
  refine ⟨gels, getrf, getri, exHand ⟨⟨0, 0, 3 / 5, 4 / 5⟩, ![1, 2, 3]⟩ exEye, exEye, ⟨⟨0, 0, 3 / 5, 4 / 5⟩, ![1, 2, 3]⟩, h1, h2, h3,
    exHand_unit hX exEye_unit, exEye_unit, hX, exHand_mounted hX exEye_unit, ?_, exHand_halfTurn _ hX b, by norm_num⟩
  refine ⟨0, 1, 1, 2, ⟨by decide, by decide, fun _ => rfl⟩, ⟨by decide, by decide, fun _ => rfl⟩, fun h => ?_⟩
  have := congrFun h 2
  simp [handTurn, exHand, exEye, Pose.inv, Pose.mul, Quat.mul, Quat.conj, axis, cross_apply] at this
  norm_num at this

/-- **C68** A mounting that is a half turn is never found: there are exact data, with independent axes and without half turns of the hand, for which no
linear solver makes the result the mounting. -/
theorem C68_half_turn_refuted : ∃ (hand eye : Fin 3 → Pose ℝ) (X : Pose ℝ), (∀ i, UnitQ (hand i).rotation) ∧ (∀ i, UnitQ (eye i).rotation) ∧
    UnitQ X.rotation ∧ RigidlyMounted hand eye X ∧ (∀ b, TwoAxes hand b) ∧ (∀ b, ∀ i k : Fin 3, UsedPair 3 b i k → (handTurn hand i k).w ≠ 0) ∧
    ∀ gels invert b P, handEyePoses gels invert (List.ofFn hand) (List.ofFn eye) b = some P → ¬ SameRotation P.rotation X.rotation := by
  have hX : UnitQ (⟨⟨0, 0, 1, 0⟩, ![1, 2, 3]⟩ : Pose ℝ).rotation := by simp only [UnitQ]; norm_num
  refine ⟨exHand ⟨⟨0, 0, 1, 0⟩, ![1, 2, 3]⟩ exEye, exEye, ⟨⟨0, 0, 1, 0⟩, ![1, 2, 3]⟩,
    exHand_unit hX exEye_unit, exEye_unit, hX, exHand_mounted hX exEye_unit, fun b => ?_, exHand_halfTurn _ hX, ?_⟩
  · refine ⟨0, 1, 1, 2, ⟨by decide, by decide, fun _ => rfl⟩, ⟨by decide, by decide, fun _ => rfl⟩, fun h => ?_⟩
    have := congrFun h 2
    simp [handTurn, exHand, exEye, Pose.inv, Pose.mul, Quat.mul, Quat.conj, axis, cross_apply] at this
  · intro gels invert b P h hs
    have := (C68_result_rotation _ _ (by simp) b P h).2
    rcases hs with hs | hs
    · rw [hs] at this
      exact this rfl
    · rw [hs.2.2.2] at this
      simp at this

/-- Poses of the eye with a half turn between the first two. -/
noncomputable def halfEye : Fin 3 → Pose ℝ :=
  ![⟨⟨0, 0, 0, 1⟩, ![0, 0, 0]⟩, ⟨⟨0, 0, 1, 0⟩, ![0, 0, 0]⟩, ⟨⟨0, -3 / 5, 4 / 5, 0⟩, ![0, 0, 0]⟩]

lemma halfEye_unit (i : Fin 3) : UnitQ (halfEye i).rotation := by
  fin_cases i <;> simp [halfEye, UnitQ] <;> norm_num

noncomputable def halfX : Pose ℝ := ⟨⟨3 / 5, 0, 0, 4 / 5⟩, ![0, 0, 0]⟩

lemma halfX_unit : UnitQ halfX.rotation := by
  simp only [halfX, UnitQ]; norm_num

/-- The quaternion that the code reads from a half turn has a sign of its own. -/
lemma getQuaternion_half (y z : ℝ) (h : y * y + z * z = 1) (hy : 0 < y) (hz : z * z < y * y) : getQuaternion (⟨0, y, z, 0⟩ : Quat ℝ).toMatrix = ![0, y, z] := by
  have e0 : (1 + (⟨0, y, z, 0⟩ : Quat ℝ).toMatrix 0 0 + (⟨0, y, z, 0⟩ : Quat ℝ).toMatrix 1 1 + (⟨0, y, z, 0⟩ : Quat ℝ).toMatrix 2 2) / 4 = 0 := by
    simp only [Quat.toMatrix, Matrix.of_apply, Matrix.cons_val]
    linear_combination -h
  have e1 : (1 + (⟨0, y, z, 0⟩ : Quat ℝ).toMatrix 0 0 - (⟨0, y, z, 0⟩ : Quat ℝ).toMatrix 1 1 - (⟨0, y, z, 0⟩ : Quat ℝ).toMatrix 2 2) / 4 = 0 := by
    simp only [Quat.toMatrix, Matrix.of_apply, Matrix.cons_val]
    ring
  have e2 : (1 - (⟨0, y, z, 0⟩ : Quat ℝ).toMatrix 0 0 + (⟨0, y, z, 0⟩ : Quat ℝ).toMatrix 1 1 - (⟨0, y, z, 0⟩ : Quat ℝ).toMatrix 2 2) / 4 = y * y := by
    simp only [Quat.toMatrix, Matrix.of_apply, Matrix.cons_val]
    ring
  have e3 : (1 - (⟨0, y, z, 0⟩ : Quat ℝ).toMatrix 0 0 - (⟨0, y, z, 0⟩ : Quat ℝ).toMatrix 1 1 + (⟨0, y, z, 0⟩ : Quat ℝ).toMatrix 2 2) / 4 = z * z := by
    simp only [Quat.toMatrix, Matrix.of_apply, Matrix.cons_val]
    ring
  have hp := mul_pos hy hy
  simp only [getQuaternion, e0, e1, e2, e3]
  simp only [Matrix.cons_val, lt_irrefl, if_false, hp, if_true, not_lt.mpr hz.le]
  simp only [Fin.isValue, Fin.reduceEq, if_false, if_true, Matrix.cons_val, sqrt_sq', abs_of_pos hy]
  have o1 : ((⟨0, y, z, 0⟩ : Quat ℝ).toMatrix 0 2 - (⟨0, y, z, 0⟩ : Quat ℝ).toMatrix 2 0) / 4 = 0 := by
    simp only [Quat.toMatrix, Matrix.of_apply, Matrix.cons_val]
    ring
  have o3 : ((⟨0, y, z, 0⟩ : Quat ℝ).toMatrix 1 0 + (⟨0, y, z, 0⟩ : Quat ℝ).toMatrix 0 1) / 4 = 0 := by
    simp only [Quat.toMatrix, Matrix.of_apply, Matrix.cons_val]
    ring
  have o5 : ((⟨0, y, z, 0⟩ : Quat ℝ).toMatrix 2 1 + (⟨0, y, z, 0⟩ : Quat ℝ).toMatrix 1 2) / 4 = z * y := by
    simp only [Quat.toMatrix, Matrix.of_apply, Matrix.cons_val]
    ring
  rw [o1, o3, o5, zero_div, mul_div_assoc, div_self hy.ne', mul_one, if_neg (lt_irrefl _)]
  simp only [Matrix.cons_val]

lemma getQuaternion_z : getQuaternion (⟨0, 0, 1, 0⟩ : Quat ℝ).toMatrix = ![0, 0, 1] := by
  have hM : (⟨0, 0, 1, 0⟩ : Quat ℝ).toMatrix = !![-1, 0, 0; 0, -1, 0; 0, 0, 1] := by
    ext i j
    fin_cases i <;> fin_cases j <;> simp [Quat.toMatrix] <;> norm_num
  rw [hM]
  have e0 : ((1 : ℝ) + -1 + -1 + 1) / 4 = 0 := by norm_num
  have e1 : ((1 : ℝ) + -1 - -1 - 1) / 4 = 0 := by norm_num
  have e2 : ((1 : ℝ) - -1 + -1 - 1) / 4 = 0 := by norm_num
  have e3 : ((1 : ℝ) - -1 - -1 + 1) / 4 = 1 := by norm_num
  simp only [getQuaternion, Matrix.of_apply, Matrix.cons_val, e0, e1, e2, e3]
  simp only [Matrix.cons_val, lt_irrefl, if_false, zero_lt_one, if_true, Fin.isValue, Fin.reduceEq, Real.sqrt_one, sub_self, add_zero, zero_div]

/-- **C68** One half turn of the hand is enough to make the result wrong, even for exact data with independent axes and a mounting that is not a
half turn: with every correct linear solver the result has another rotation. -/
theorem C68_hand_half_turn_refuted : ∃ (hand eye : Fin 3 → Pose ℝ) (X : Pose ℝ), (∀ i, UnitQ (hand i).rotation) ∧ (∀ i, UnitQ (eye i).rotation) ∧
    UnitQ X.rotation ∧ X.rotation.w ≠ 0 ∧ RigidlyMounted hand eye X ∧ TwoAxes hand false ∧
    ∀ gels getrf getri, SolvesFullRank gels → LUFactorisation getrf → LUInverse getri →
      ∃ P, handEyePoses gels (MatrixOperations.invertMatrix getrf getri) (List.ofFn hand) (List.ofFn eye) false = some P ∧
        ¬ SameRotation P.rotation X.rotation := by
  refine ⟨exHand halfX halfEye, halfEye, halfX, exHand_unit halfX_unit halfEye_unit, halfEye_unit, halfX_unit, by norm_num [halfX],
    exHand_mounted halfX_unit halfEye_unit, ?_, ?_⟩
  · refine ⟨0, 1, 1, 2, ⟨by decide, by decide, fun _ => rfl⟩, ⟨by decide, by decide, fun _ => rfl⟩, fun h => ?_⟩
    have := congrFun h 1
    simp [handTurn, exHand, halfEye, halfX, Pose.inv, Pose.mul, Quat.mul, Quat.conj, axis, cross_apply] at this
    norm_num at this
  · intro gels getrf getri hg hrf hri
    obtain ⟨tc, htc, hmem⟩ := fill_poses (fun A hA => (MatrixOperations.C60_inverse getrf hrf getri hri A hA).1) (exHand halfX halfEye) halfEye
      (exHand_unit halfX_unit halfEye_unit) halfEye_unit false
    have hpairs : ∀ i k : Fin 3, UsedPair 3 false i k ↔ (i = 0 ∧ k = 1) ∨ (i = 1 ∧ k = 2) := by
      intro i k
      fin_cases i <;> fin_cases k <;> simp [UsedPair]
    have hs01 : sidesRot ((exHand halfX halfEye 1).inv.mul (exHand halfX halfEye 0)).toMatrix4 ((halfEye 1).mul (halfEye 0).inv).toMatrix4 =
        (skew ![0, 24 / 25, 18 / 25], ![0, -24 / 25, 32 / 25]) := by
      have hgq : ((exHand halfX halfEye 1).inv.mul (exHand halfX halfEye 0)).rotation = ⟨0, -(24 / 25), 7 / 25, 0⟩ := by
        simp [exHand, halfEye, halfX, Pose.inv, Pose.mul, Quat.mul, Quat.conj]
        norm_num
      have hcq : ((halfEye 1).mul (halfEye 0).inv).rotation = ⟨0, 0, 1, 0⟩ := by
        simp [halfEye, Pose.inv, Pose.mul, Quat.mul, Quat.conj]
      have hneg : (⟨0, -(24 / 25), 7 / 25, 0⟩ : Quat ℝ).toMatrix = (⟨0, 24 / 25, -7 / 25, 0⟩ : Quat ℝ).toMatrix :=
        Quat.sameRotation_toMatrix (Or.inr ⟨by norm_num, rfl, by norm_num, by norm_num⟩)
      rw [sidesRot, block_pose, block_pose, hgq, hcq, hneg, getQuaternion_half _ _ (by norm_num) (by norm_num) (by norm_num), getQuaternion_z]
      congr 1
      · congr 1
        funext i
        fin_cases i <;> simp
        norm_num
      · funext i
        fin_cases i <;> simp <;> norm_num
    have hs12 : sidesRot ((exHand halfX halfEye 2).inv.mul (exHand halfX halfEye 1)).toMatrix4 ((halfEye 2).mul (halfEye 1).inv).toMatrix4 =
        (skew ![6 / 5, 0, 0], ![0, 0, 0]) := by
      have hgq : ((exHand halfX halfEye 2).inv.mul (exHand halfX halfEye 1)).rotation = ⟨3 / 5, 0, 0, 4 / 5⟩ := by
        simp [exHand, halfEye, halfX, Pose.inv, Pose.mul, Quat.mul, Quat.conj]
        norm_num
      have hcq : ((halfEye 2).mul (halfEye 1).inv).rotation = ⟨3 / 5, 0, 0, 4 / 5⟩ := by
        simp [halfEye, Pose.inv, Pose.mul, Quat.mul, Quat.conj]
        norm_num
      rw [sidesRot, block_pose, block_pose, hgq, hcq, getQuaternion_pos _ (by simp only [UnitQ]; norm_num) (by norm_num)]
      congr 1
      · congr 1
        funext i
        fin_cases i <;> simp
        norm_num
      · funext i
        fin_cases i <;> simp
    have hrot : gels (tc.flatMap fun h => rows (sidesRot h.1 h.2)) = ![-4 / 3, 0, 0] := by
      apply solves_exact hg
      · intro u hu0
        have hker := rows_kernel (f := fun t => sidesRot t.1 t.2) hu0
        have hk1 := hker _ ((hmem _).mpr ⟨0, 1, (hpairs _ _).mpr (Or.inl ⟨rfl, rfl⟩), rfl⟩)
        have hk2 := hker _ ((hmem _).mpr ⟨1, 2, (hpairs _ _).mpr (Or.inr ⟨rfl, rfl⟩), rfl⟩)
        simp only [hs01, hs12, skew_mulVec] at hk1 hk2
        refine parallel_both hk1 hk2 (fun h => ?_)
        have := congrFun h 1
        simp [cross_apply] at this
      · apply rows_exact (f := fun t => sidesRot t.1 t.2)
        intro t ht
        obtain ⟨i, k, hu, rfl⟩ := (hmem t).mp ht
        rcases (hpairs i k).mp hu with ⟨rfl, rfl⟩ | ⟨rfl, rfl⟩
        · simp only [hs01, skew_mulVec]
          funext i
          fin_cases i <;> simp [cross_apply] <;> norm_num
        · simp only [hs12, skew_mulVec]
          funext i
          fin_cases i <;> simp [cross_apply]
    refine ⟨⟨Quat.ofMatrix (computePcg gels tc), computeTcg gels tc (computePcg gels tc)⟩, ?_, ?_⟩
    · rw [handEyePoses, handEye, if_neg (by simp), if_neg (by simp), htc]
      rfl
    · have hq : UnitQ (⟨-4 / 5, 0, 0, 3 / 5⟩ : Quat ℝ) := by simp only [UnitQ]; norm_num
      have hR : computePcg gels tc = (⟨-4 / 5, 0, 0, 3 / 5⟩ : Quat ℝ).toMatrix := by
        rw [computePcg, hrot, ← getRcg_exact _ hq (by norm_num)]
        norm_num
      rw [hR]
      have h := C04_matrix_to_quaternion _ hq
      intro h'
      generalize Quat.ofMatrix _ = r at h h'
      rcases h with h | ⟨h1, -, -, -⟩ <;> rcases h' with h' | ⟨h1', -, -, -⟩
      · rw [h] at h'
        have := congrArg Quat.x h'
        norm_num [halfX] at this
      · rw [h] at h1'
        norm_num [halfX] at h1'
      · have h' : r = halfX.rotation := h'
        rw [h'] at h1
        norm_num [halfX] at h1
      · rw [h1] at h1'
        norm_num [halfX] at h1'

end Ubitrack.TsaiLenz

import Verif.Props.RotationReal
import Mathlib.Analysis.SpecialFunctions.Trigonometric.Bounds
import Mathlib.Analysis.Real.Pi.Bounds

/-!
# C05: exponential and logarithm of rotations
-/

namespace Ubitrack
open Ubitrack.Spec Ubitrack.Quat

namespace Quat

theorem norm3_nonneg (v : Vec ℝ 3) : 0 ≤ norm3 v := Real.sqrt_nonneg _

theorem norm3_sq (v : Vec ℝ 3) : norm3 v ^ 2 = v 0 ^ 2 + v 1 ^ 2 + v 2 ^ 2 := by
  unfold norm3
  have h0 := mul_self_nonneg (v 0)
  have h1 := mul_self_nonneg (v 1)
  have h2 := mul_self_nonneg (v 2)
  rw [Real.sq_sqrt (by linarith)]
  ring

/-- length of the imaginary part -/
noncomputable def imagLen (q : Quat ℝ) : ℝ := Real.sqrt (q.x * q.x + q.y * q.y + q.z * q.z)

theorem imagLen_sq (q : Quat ℝ) : q.imagLen ^ 2 = q.x ^ 2 + q.y ^ 2 + q.z ^ 2 := by
  unfold imagLen
  rw [Real.sq_sqrt (by nlinarith [mul_self_nonneg q.x, mul_self_nonneg q.y, mul_self_nonneg q.z])]
  ring

theorem imagLen_nonneg (q : Quat ℝ) : 0 ≤ q.imagLen := Real.sqrt_nonneg _

theorem imagLen_sq_unit {q : Quat ℝ} (h : UnitQ q) : q.imagLen ^ 2 = 1 - q.w ^ 2 := by
  rw [imagLen_sq]; unfold UnitQ at h; linarith

theorem abs_w_le {q : Quat ℝ} (h : UnitQ q) : |q.w| ≤ 1 := by
  unfold UnitQ at h
  rw [abs_le_one_iff_mul_self_le_one]
  nlinarith [sq_nonneg q.x, sq_nonneg q.y, sq_nonneg q.z]

/-- The sign chosen by `toLogarithm`. -/
theorem sign_w (w : ℝ) : ∃ s : ℝ, (if w ≥ 0 then (1 : ℝ) else -1) = s ∧ (s = 1 ∨ s = -1) ∧
    w * s = |w| ∧ s * s = 1 := by
  by_cases h : w ≥ 0
  · exact ⟨1, by simp [h], Or.inl rfl, by rw [abs_of_nonneg h]; ring, by norm_num⟩
  · refine ⟨-1, by simp [h], Or.inr rfl, ?_, by norm_num⟩
    rw [abs_of_neg (not_le.mp h)]; ring

/-- The half angle `arccos |w|`. -/
theorem sin_half {q : Quat ℝ} (h : UnitQ q) : Real.sin (Real.arccos |q.w|) = q.imagLen := by
  rw [Real.sin_arccos, sq_abs, ← imagLen_sq_unit h, Real.sqrt_sq (imagLen_nonneg q)]

theorem toLogarithm_eq {q : Quat ℝ} (h : UnitQ q) (hi : 1e-12 < q.imagLen) :
    ∃ s : ℝ, (s = 1 ∨ s = -1) ∧ q.w * s = |q.w| ∧ s * s = 1 ∧
    toLogarithm q = ![q.x * (s * (2 * Real.arccos |q.w|) / q.imagLen),
      q.y * (s * (2 * Real.arccos |q.w|) / q.imagLen),
      q.z * (s * (2 * Real.arccos |q.w|) / q.imagLen)] := by
  obtain ⟨s, hs1, hs2, hs3, hs4⟩ := sign_w q.w
  refine ⟨s, hs2, hs3, hs4, ?_⟩
  have hlt : |q.w| < 1 := by
    have := imagLen_sq_unit h
    have h1 : 0 < q.imagLen ^ 2 := by positivity
    rw [← sq_lt_one_iff_abs_lt_one]; linarith
  unfold toLogarithm
  simp only [hs1, hs3]
  rw [if_pos hlt]
  rw [if_pos (show Real.sqrt (q.x * q.x + q.y * q.y + q.z * q.z) > 1e-12 from hi)]
  rfl

theorem toLogarithm_small {q : Quat ℝ} (hi : ¬ 1e-12 < q.imagLen) :
    toLogarithm q = ![0, 0, 0] := by
  unfold toLogarithm
  simp only
  rw [if_neg (show ¬ Real.sqrt (q.x * q.x + q.y * q.y + q.z * q.z) > 1e-12 from hi)]

end Quat

/-- **C05** The exponential of every rotation vector is a unit quaternion. -/
theorem C05_exp_unit (v : Vec ℝ 3) : UnitQ (fromLogarithm v) := by
  unfold fromLogarithm
  simp only
  split_ifs with h
  · have hw : norm3 v ≠ 0 := by
      have : (0 : ℝ) < 1e-12 := by norm_num
      exact (lt_trans this h).ne'
    have h1 := norm3_sq v
    have h2 := Real.sin_sq_add_cos_sq (norm3 v / 2)
    unfold UnitQ
    have : (Real.sin (norm3 v / 2) / norm3 v * v 0) ^ 2 + (Real.sin (norm3 v / 2) / norm3 v * v 1) ^ 2 +
        (Real.sin (norm3 v / 2) / norm3 v * v 2) ^ 2 = Real.sin (norm3 v / 2) ^ 2 := by
      have : (Real.sin (norm3 v / 2) / norm3 v * v 0) ^ 2 + (Real.sin (norm3 v / 2) / norm3 v * v 1) ^ 2 +
        (Real.sin (norm3 v / 2) / norm3 v * v 2) ^ 2
        = (Real.sin (norm3 v / 2) / norm3 v) ^ 2 * (norm3 v) ^ 2 := by rw [h1]; ring
      rw [this, div_pow, div_mul_cancel₀ _ (pow_ne_zero 2 hw)]
    rw [this]; exact h2
  · norm_num [UnitQ]

/-- **C05** The logarithm of every unit quaternion is a rotation vector of length at most π; its
length is the rotation angle reported by `angle()` (outside the near-identity cutoff). -/
theorem C05_log_length (q : Quat ℝ) (hq : UnitQ q) :
    norm3 (toLogarithm q) ≤ Real.pi ∧
    (1e-12 < q.imagLen → norm3 (toLogarithm q) = q.angle) := by
  have harc : 2 * Real.arccos |q.w| ≤ Real.pi := by
    have := Real.arccos_le_pi_div_two.mpr (abs_nonneg q.w)
    linarith
  have hang : q.angle = 2 * Real.arccos |q.w| := by
    unfold angle
    split_ifs with h
    · rw [abs_of_pos h]
    · rw [abs_of_nonpos (not_lt.mp h)]
  by_cases hi : 1e-12 < q.imagLen
  · obtain ⟨s, _, _, hss, hl⟩ := toLogarithm_eq hq hi
    have hne : q.imagLen ≠ 0 := by
      have : (0 : ℝ) < 1e-12 := by norm_num
      exact (lt_trans this hi).ne'
    have hn : norm3 (toLogarithm q) = 2 * Real.arccos |q.w| := by
      have hsq : norm3 (toLogarithm q) ^ 2 = (2 * Real.arccos |q.w|) ^ 2 := by
        rw [norm3_sq, hl]
        simp only [Matrix.cons_val]
        have h3 := imagLen_sq q
        have : ∀ c : ℝ, (q.x * c) ^ 2 + (q.y * c) ^ 2 + (q.z * c) ^ 2 = q.imagLen ^ 2 * c ^ 2 := by
          intro c; rw [h3]; ring
        rw [this]
        field_simp
        rw [pow_two s, hss, one_mul]
      exact (sq_eq_sq₀ (norm3_nonneg _) (by have := Real.arccos_nonneg |q.w|; linarith)).mp hsq
    exact ⟨hn ▸ harc, fun _ => hn.trans hang.symm⟩
  · rw [toLogarithm_small hi]
    refine ⟨?_, fun h => absurd h hi⟩
    have : norm3 ![0, 0, 0] = 0 := by simp [norm3]
    rw [this]; exact Real.pi_pos.le

/-- **C05** `fromLogarithm( toLogarithm( q ) )` is the same rotation as `q` for every unit `q`
whose imaginary part is longer than the cutoff; the representative with `w ≥ 0` is returned. -/
theorem C05_exp_log (q : Quat ℝ) (hq : UnitQ q) (hi : 1e-12 < q.imagLen) :
    SameRotation (fromLogarithm (toLogarithm q)) q ∧ 0 ≤ (fromLogarithm (toLogarithm q)).w := by
  have hcut : (0 : ℝ) < 1e-12 := by norm_num
  have hipos : 0 < q.imagLen := lt_trans hcut hi
  have hlen := (C05_log_length q hq).2 hi
  have hang : q.angle = 2 * Real.arccos |q.w| := by
    unfold angle
    split_ifs with h
    · rw [abs_of_pos h]
    · rw [abs_of_nonpos (not_lt.mp h)]
  rw [hang] at hlen
  have hsin := sin_half hq
  have hle : q.imagLen ≤ Real.arccos |q.w| := hsin ▸ Real.sin_le (Real.arccos_nonneg _)
  have hom : norm3 (toLogarithm q) > 1e-12 := by rw [hlen]; linarith
  obtain ⟨s, hs, hws, hss, hl⟩ := toLogarithm_eq hq hi
  have harc0 : Real.arccos |q.w| ≠ 0 := (lt_of_lt_of_le hipos hle).ne'
  have hcos : Real.cos (Real.arccos |q.w|) = |q.w| :=
    Real.cos_arccos (by linarith [abs_nonneg q.w]) (abs_w_le hq)
  unfold fromLogarithm
  simp only
  rw [if_pos hom, hlen, mul_div_cancel_left₀ _ (two_ne_zero), hsin, hcos]
  refine ⟨sameRotation_of_sign s hs ?_ ?_ ?_ ?_, abs_nonneg _⟩
  · rw [hl]; simp only [Matrix.cons_val]; field_simp
  · rw [hl]; simp only [Matrix.cons_val]; field_simp
  · rw [hl]; simp only [Matrix.cons_val]; field_simp
  · rw [← hws]; ring

/-- **C05** Inside the cutoff the round trip returns the identity, which is within squared distance
2e-24 of `q` or `-q`. -/
theorem C05_exp_log_near_identity (q : Quat ℝ) (hq : UnitQ q) (hi : ¬ 1e-12 < q.imagLen) :
    fromLogarithm (toLogarithm q) = one ∧ (distSq one q ≤ 2e-24 ∨ distSq one (neg q) ≤ 2e-24) := by
  constructor
  · rw [toLogarithm_small hi]
    unfold fromLogarithm
    have : norm3 ![0, 0, 0] = 0 := by simp [norm3]
    simp only [this]
    rw [if_neg (by norm_num)]
    rfl
  · have h0 := imagLen_nonneg q
    have h1 : q.imagLen ^ 2 ≤ 1e-24 := by
      have := not_lt.mp hi
      nlinarith
    have h2 := imagLen_sq q
    unfold UnitQ at hq
    simp only [distSq, one, neg]
    rcases le_total 0 q.w with hw | hw
    · left; nlinarith
    · right; nlinarith

/-- **C05** `toLogarithm( fromLogarithm( v ) ) = v` for every rotation vector of length between
1e-11 and π (both inclusive). -/
theorem C05_log_exp (v : Vec ℝ 3) (hlo : 1e-11 ≤ norm3 v) (hhi : norm3 v ≤ Real.pi) :
    toLogarithm (fromLogarithm v) = v := by
  have hpos : 0 < norm3 v := by
    have : (0 : ℝ) < 1e-11 := by norm_num
    linarith
  have hpi := Real.pi_pos
  set q := fromLogarithm v with hqd
  have hq : UnitQ q := C05_exp_unit v
  have hqe : q = ⟨Real.sin (norm3 v / 2) / norm3 v * v 0, Real.sin (norm3 v / 2) / norm3 v * v 1,
      Real.sin (norm3 v / 2) / norm3 v * v 2, Real.cos (norm3 v / 2)⟩ := by
    rw [hqd]; unfold fromLogarithm; simp only
    rw [if_pos]
    have : (1e-12 : ℝ) < 1e-11 := by norm_num
    linarith
  have hw : q.w = Real.cos (norm3 v / 2) := by rw [hqe]
  have hw0 : 0 ≤ q.w := by
    rw [hw]; exact Real.cos_nonneg_of_mem_Icc ⟨by linarith, by linarith⟩
  have hsinpos : 0 < Real.sin (norm3 v / 2) := Real.sin_pos_of_pos_of_lt_pi (by linarith) (by linarith)
  have harc : Real.arccos |q.w| = norm3 v / 2 := by
    rw [abs_of_nonneg hw0, hw, Real.arccos_cos (by linarith) (by linarith)]
  have him : q.imagLen = Real.sin (norm3 v / 2) := by rw [← sin_half hq, harc]
  have hi : 1e-12 < q.imagLen := by
    rw [him]
    have h1 := Real.mul_le_sin (show 0 ≤ norm3 v / 2 by linarith) (show norm3 v / 2 ≤ Real.pi / 2 by linarith)
    have h2 : (2 / Real.pi) * (norm3 v / 2) = norm3 v / Real.pi := by field_simp
    rw [h2] at h1
    have h3 : (1e-12 : ℝ) < norm3 v / Real.pi := by
      rw [lt_div_iff₀ hpi]
      have : Real.pi < 4 := Real.pi_lt_four
      have h4 : (1e-12 : ℝ) * Real.pi ≤ 1e-12 * 4 := by
        apply mul_le_mul_of_nonneg_left this.le; norm_num
      have h5 : (1e-12 : ℝ) * 4 < 1e-11 := by norm_num
      linarith
    linarith
  obtain ⟨s, hs, hws, hss, hl⟩ := toLogarithm_eq hq hi
  have hs1 : toLogarithm q = ![q.x * (norm3 v / q.imagLen), q.y * (norm3 v / q.imagLen),
      q.z * (norm3 v / q.imagLen)] := by
    unfold toLogarithm
    simp only
    rw [if_pos hw0, if_pos (show Real.sqrt (q.x * q.x + q.y * q.y + q.z * q.z) > 1e-12 from hi)]
    have hlt : q.w * 1 < 1 := by
      have h := imagLen_sq_unit hq
      have : 0 < q.imagLen ^ 2 := by rw [him]; positivity
      nlinarith
    rw [if_pos hlt]
    have : Real.arccos (q.w * 1) = norm3 v / 2 := by rw [mul_one, ← harc, abs_of_nonneg hw0]
    rw [this]
    have e : (1 : ℝ) * (2 * (norm3 v / 2)) = norm3 v := by ring
    rw [e]
    rfl
  rw [hs1, him, hqe]
  have h1 := hsinpos.ne'
  have h2 := hpos.ne'
  ext i; fin_cases i <;> simp <;> field_simp

/-- The lower bound in `C05_log_exp` cannot be lowered to the cutoff 1e-12 itself: just above it
the logarithm returns zero. -/
theorem C05_log_exp_cutoff_gap :
    toLogarithm (fromLogarithm ![2e-12, 0, 0]) ≠ ![2e-12, 0, 0] := by
  have hn : norm3 ![2e-12, 0, 0] = 2e-12 := by
    unfold norm3
    simp only [Matrix.cons_val]
    rw [show (2e-12 : ℝ) * 2e-12 + 0 * 0 + 0 * 0 = (2e-12) ^ 2 by norm_num]
    exact Real.sqrt_sq (by norm_num)
  have hq : fromLogarithm ![2e-12, 0, 0] = ⟨Real.sin (1e-12), 0, 0, Real.cos (1e-12)⟩ := by
    unfold fromLogarithm
    simp only [hn]
    rw [if_pos (by norm_num)]
    simp only [Matrix.cons_val]
    rw [show (2e-12 : ℝ) / 2 = 1e-12 by norm_num]
    ext
    · dsimp only; rw [div_mul_cancel₀]; norm_num
    · dsimp only; ring
    · dsimp only; ring
    · rfl
  have hs : Real.sin (1e-12) ≤ 1e-12 := Real.sin_le (by norm_num)
  have hs0 : 0 ≤ Real.sin (1e-12) :=
    Real.sin_nonneg_of_nonneg_of_le_pi (by norm_num) (by linarith [Real.pi_gt_three])
  have him : ¬ 1e-12 < (fromLogarithm ![2e-12, 0, 0]).imagLen := by
    rw [hq, imagLen]
    simp only
    rw [show Real.sin 1e-12 * Real.sin 1e-12 + 0 * 0 + 0 * 0 = Real.sin 1e-12 ^ 2 by ring,
      Real.sqrt_sq hs0]
    exact not_lt.mpr hs
  rw [toLogarithm_small him]
  intro h
  have := congrFun h 0
  norm_num at this

example : UnitQ (⟨3 / 5, 0, 0, -4 / 5⟩ : Quat ℝ) ∧ 1e-12 < (⟨3 / 5, 0, 0, -4 / 5⟩ : Quat ℝ).imagLen := by
  constructor
  · norm_num [UnitQ]
  · unfold imagLen
    apply Real.lt_sqrt_of_sq_lt
    norm_num

example : (1e-11 : ℝ) ≤ norm3 ![1, 2, 2] ∧ norm3 ![1, 2, 2] ≤ Real.pi := by
  have : norm3 ![1, 2, 2] = 3 := by
    unfold norm3
    simp only [Matrix.cons_val]
    rw [show (1 : ℝ) * 1 + 2 * 2 + 2 * 2 = 3 ^ 2 by norm_num]
    exact Real.sqrt_sq (by norm_num)
  rw [this]
  exact ⟨by norm_num, Real.pi_gt_three.le⟩

end Ubitrack

import Verif.Props.ExpLog

/-! # C05: the logarithm of the exponential, without a lower bound of the length -/

namespace Ubitrack
open Ubitrack.Spec Ubitrack.Quat

/-- **C05** For every rotation vector of length up to π, `toLogarithm( fromLogarithm( v ) )` is `v`,
or it is zero and `v` is shorter than 1e-11. -/
theorem C05_log_exp_all (v : Vec ℝ 3) (hhi : norm3 v ≤ Real.pi) :
    toLogarithm (fromLogarithm v) = v ∨ (toLogarithm (fromLogarithm v) = ![0, 0, 0] ∧ norm3 v < 1e-11) := by
  by_cases hlo : 1e-11 ≤ norm3 v
  · exact Or.inl (C05_log_exp v hlo hhi)
  push Not at hlo
  by_cases h12 : 1e-12 < norm3 v
  swap
  · right
    refine ⟨?_, hlo⟩
    unfold fromLogarithm
    simp only
    rw [if_neg h12]
    unfold toLogarithm
    simp
  have hpos : 0 < norm3 v := lt_trans (by norm_num) h12
  have hpi := Real.pi_pos
  set q := fromLogarithm v with hqd
  have hq : UnitQ q := C05_exp_unit v
  have hqe : q = ⟨Real.sin (norm3 v / 2) / norm3 v * v 0, Real.sin (norm3 v / 2) / norm3 v * v 1,
      Real.sin (norm3 v / 2) / norm3 v * v 2, Real.cos (norm3 v / 2)⟩ := by
    rw [hqd]; unfold fromLogarithm; simp only
    rw [if_pos h12]
  by_cases hi : 1e-12 < q.imagLen
  swap
  · exact Or.inr ⟨toLogarithm_small hi, hlo⟩
  left
  have hw : q.w = Real.cos (norm3 v / 2) := by rw [hqe]
  have hw0 : 0 ≤ q.w := by
    rw [hw]; exact Real.cos_nonneg_of_mem_Icc ⟨by linarith, by linarith⟩
  have hsinpos : 0 < Real.sin (norm3 v / 2) := Real.sin_pos_of_pos_of_lt_pi (by linarith) (by linarith)
  have harc : Real.arccos |q.w| = norm3 v / 2 := by
    rw [abs_of_nonneg hw0, hw, Real.arccos_cos (by linarith) (by linarith)]
  have him : q.imagLen = Real.sin (norm3 v / 2) := by rw [← sin_half hq, harc]
  have hs1 : toLogarithm q = ![q.x * (norm3 v / q.imagLen), q.y * (norm3 v / q.imagLen),
      q.z * (norm3 v / q.imagLen)] := by
    unfold toLogarithm
    simp only
    rw [if_pos hw0, if_pos (show Real.sqrt (q.x * q.x + q.y * q.y + q.z * q.z) > 1e-12 from hi)]
    have hlt : q.w * 1 < 1 := by
      have h := imagLen_sq_unit hq
      have : 0 < q.imagLen ^ 2 := by rw [him]; positivity
      nlinarith
    rw [if_pos hlt]
    have : Real.arccos (q.w * 1) = norm3 v / 2 := by rw [mul_one, ← harc, abs_of_nonneg hw0]
    rw [this]
    have e : (1 : ℝ) * (2 * (norm3 v / 2)) = norm3 v := by ring
    rw [e]
    rfl
  rw [hs1, him, hqe]
  have h1 := hsinpos.ne'
  have h2 := hpos.ne'
  ext i; fin_cases i <;> simp <;> field_simp

/-- **C05** A rotation vector longer than π (and shorter than 2π by at least 1e-11) comes back as the vector of the
same axis that turns the other way round, by 2π less the angle. -/
theorem C05_log_exp_long (v : Vec ℝ 3) (hlo : Real.pi < norm3 v) (hhi : norm3 v ≤ 2 * Real.pi - 1e-11) :
    toLogarithm (fromLogarithm v) = fun i => -((2 * Real.pi - norm3 v) * (v i / norm3 v)) := by
  have hpi := Real.pi_pos
  have hpos : 0 < norm3 v := by linarith
  have h3 := Real.pi_gt_three
  set q := fromLogarithm v with hqd
  have hq : UnitQ q := C05_exp_unit v
  have hqe : q = ⟨Real.sin (norm3 v / 2) / norm3 v * v 0, Real.sin (norm3 v / 2) / norm3 v * v 1,
      Real.sin (norm3 v / 2) / norm3 v * v 2, Real.cos (norm3 v / 2)⟩ := by
    rw [hqd]; unfold fromLogarithm; simp only
    rw [if_pos (by norm_num; linarith)]
  have hsmall : (0 : ℝ) < 1e-11 := by norm_num
  have hw : q.w = Real.cos (norm3 v / 2) := by rw [hqe]
  have hw0 : q.w < 0 := by
    rw [hw]; exact Real.cos_neg_of_pi_div_two_lt_of_lt (by linarith) (by linarith)
  have hsinpos : 0 < Real.sin (norm3 v / 2) := Real.sin_pos_of_pos_of_lt_pi (by linarith) (by linarith)
  have harc : Real.arccos |q.w| = Real.pi - norm3 v / 2 := by
    rw [abs_of_neg hw0, hw, Real.arccos_neg, Real.arccos_cos (by linarith) (by linarith)]
  have him : q.imagLen = Real.sin (norm3 v / 2) := by rw [← sin_half hq, harc, Real.sin_pi_sub]
  have hi : 1e-12 < q.imagLen := by
    rw [him, ← Real.sin_pi_sub]
    have h1 := Real.mul_le_sin (show 0 ≤ Real.pi - norm3 v / 2 by linarith)
      (show Real.pi - norm3 v / 2 ≤ Real.pi / 2 by linarith)
    refine lt_of_lt_of_le ?_ h1
    rw [div_mul_eq_mul_div, lt_div_iff₀ hpi]
    have h4 := Real.pi_lt_four
    have h5 : (1e-12 : ℝ) * Real.pi ≤ 1e-12 * 4 := mul_le_mul_of_nonneg_left h4.le (by norm_num)
    have h6 : (1e-12 : ℝ) * 4 < 1e-11 := by norm_num
    linarith
  have hs1 : toLogarithm q = ![q.x * (-(2 * Real.pi - norm3 v) / q.imagLen), q.y * (-(2 * Real.pi - norm3 v) / q.imagLen),
      q.z * (-(2 * Real.pi - norm3 v) / q.imagLen)] := by
    unfold toLogarithm
    simp only
    rw [if_neg (not_le.mpr hw0), if_pos (show Real.sqrt (q.x * q.x + q.y * q.y + q.z * q.z) > 1e-12 from hi)]
    have hlt : q.w * -1 < 1 := by
      have h := imagLen_sq_unit hq
      have : 0 < q.imagLen ^ 2 := by rw [him]; positivity
      nlinarith
    rw [if_pos hlt]
    have : Real.arccos (q.w * -1) = Real.pi - norm3 v / 2 := by
      rw [mul_neg_one, ← harc, abs_of_neg hw0]
    rw [this]
    have e : (-1 : ℝ) * (2 * (Real.pi - norm3 v / 2)) = -(2 * Real.pi - norm3 v) := by ring
    rw [e]
    rfl
  rw [hs1, him, hqe]
  have h1 := hsinpos.ne'
  have h2 := hpos.ne'
  ext i; fin_cases i <;> simp <;> field_simp <;> ring

/-- A rotation vector of length six. -/
example : Real.pi < norm3 ![2, 4, -4] ∧ norm3 ![2, 4, -4] ≤ 2 * Real.pi - 1e-11 := by
  have h : norm3 ![2, 4, -4] = 6 := by
    unfold norm3
    simp only [Matrix.cons_val]
    rw [show (2 : ℝ) * 2 + 4 * 4 + -4 * -4 = 6 ^ 2 by norm_num, Real.sqrt_sq (by norm_num)]
  rw [h]
  constructor
  · linarith [Real.pi_lt_four]
  · have := Real.pi_gt_d2
    norm_num at this ⊢
    linarith

/-- A rotation vector of length three. -/
example : norm3 ![1, 2, -2] ≤ Real.pi := by
  unfold norm3
  simp only [Matrix.cons_val]
  rw [show (1 : ℝ) * 1 + 2 * 2 + -2 * -2 = 3 ^ 2 by norm_num, Real.sqrt_sq (by norm_num)]
  exact Real.pi_gt_three.le

end Ubitrack

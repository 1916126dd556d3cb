import Verif.Props.KalmanHistory
import Verif.Props.FunctionComposition
import Verif.Spec.RotationHandEye

/-!
# C70, C71: online hand-eye calibration of the rotation
-/

namespace Ubitrack.RotationHandEye
open Spec Matrix Stochastic RotationFunction FunctionComposition

/-! ## OnlineRotHec -/

lemma skewMatrix_mulVec (v x : Vec ℝ 3) : skewMatrix v *ᵥ x = v ⨯₃ x := by
  ext i
  fin_cases i <;> simp [skewMatrix, Matrix.mulVec, dotProduct, Fin.sum_univ_three, cross_apply] <;> ring

/-- The measurement of a pair of rotations. -/
noncomputable def measurement (p : Quat ℝ × Quat ℝ) : LinearMeasurement 3 3 :=
  ⟨skewMatrix (axisPart p.1 + axisPart p.2), axisPart p.2 - axisPart p.1, 1⟩

lemma onlineAdd_eq (state : ErrorVector ℝ 3) (p : Quat ℝ × Quat ℝ) : onlineAdd state p.1 p.2 =
    kalmanUpdate (linearFunction (measurement p).H) state ⟨(measurement p).z, (measurement p).R⟩ 0 (by omega) := by
  obtain ⟨q, r⟩ := p
  have h1 : ![r.x * (if r.w < 0 then -1 else 1) - q.x * (if q.w < 0 then -1 else 1), r.y * (if r.w < 0 then -1 else 1) - q.y * (if q.w < 0 then -1 else 1),
      r.z * (if r.w < 0 then -1 else 1) - q.z * (if q.w < 0 then -1 else 1)] = axisPart r - axisPart q := by
    ext i
    rw [axisPart, axisPart]
    split_ifs <;> fin_cases i <;> simp
  have h2 : ![q.x * (if q.w < 0 then -1 else 1) + r.x * (if r.w < 0 then -1 else 1), q.y * (if q.w < 0 then -1 else 1) + r.y * (if r.w < 0 then -1 else 1),
      q.z * (if q.w < 0 then -1 else 1) + r.z * (if r.w < 0 then -1 else 1)] = axisPart q + axisPart r := by
    ext i
    rw [axisPart, axisPart]
    split_ifs <;> fin_cases i <;> simp
  simp only [onlineAdd, measurement, h1, h2]
  
lemma onlineRun_eq (pairs : List (Quat ℝ × Quat ℝ)) : onlineRun pairs = linearRun onlineInit (pairs.map measurement) := by
  rw [onlineRun, linearRun, List.foldl_map]
  congr 1
  funext s p
  exact onlineAdd_eq s p

lemma init_posDef : onlineInit.covariance.PosDef := by
  rw [onlineInit]
  exact Matrix.PosDef.one.smul (by norm_num)

lemma init_inv : (onlineInit.covariance)⁻¹ = (1e-6 : ℝ) • (1 : Mat ℝ 3 3) := by
  apply Matrix.inv_eq_right_inv
  rw [onlineInit]
  simp only [Matrix.smul_mul, Matrix.mul_smul, Matrix.mul_one, smul_smul]
  norm_num

lemma dot_self (x : Vec ℝ 3) : x ⬝ᵥ x = lenSq x := by
  simp only [dotProduct, Fin.sum_univ_three, lenSq]
  ring

lemma deviation_eq (pairs : List (Quat ℝ × Quat ℝ)) (x : Vec ℝ 3) : deviation onlineInit (pairs.map measurement) x = onlineCost pairs x := by
  have h0 : onlineInit.value = 0 := by
    ext i
    fin_cases i <;> rfl
  rw [deviation, onlineCost, init_inv, h0, sub_zero, List.map_map]
  congr 1
  · rw [Matrix.smul_mulVec, Matrix.one_mulVec, dotProduct_smul, smul_eq_mul, dot_self]
  · congr 2
    funext p
    simp only [Function.comp, measurement, inv_one, Matrix.one_mulVec, skewMatrix_mulVec, dot_self]

lemma measurement_posDef (pairs : List (Quat ℝ × Quat ℝ)) : ∀ a ∈ pairs.map measurement, a.R.PosDef := by
  intro a ha
  obtain ⟨p, -, rfl⟩ := List.mem_map.mp ha
  exact Matrix.PosDef.one

lemma information_eq (pairs : List (Quat ℝ × Quat ℝ)) (v : Vec ℝ 3) :
    v ⬝ᵥ ((onlineRun pairs).covariance)⁻¹ *ᵥ v = 1e-6 * lenSq v + excitation pairs v := by
  rw [onlineRun_eq, (C29_least_squares (pairs.map measurement) (measurement_posDef pairs) onlineInit init_posDef).2.1, init_inv,
    Matrix.add_mulVec, dotProduct_add, Matrix.smul_mulVec, Matrix.one_mulVec, dotProduct_smul, smul_eq_mul, dot_self]
  congr 1
  rw [excitation]
  induction pairs with
  | nil => simp
  | cons p l ih =>
    rw [List.map_cons, List.map_cons, List.sum_cons, List.map_cons, List.sum_cons, Matrix.add_mulVec, dotProduct_add, ih]
    congr 1
    simp only [measurement, inv_one, Matrix.mul_one]
    rw [← Matrix.mulVec_mulVec, Matrix.dotProduct_mulVec, Matrix.vecMul_transpose, dot_self, skewMatrix_mulVec]

/-- **C70** After any history of pairs the state minimises the sum of squared deviations from the equations of all pairs (with a small term that prefers
short vectors): every other vector has a larger sum, by a positive definite form of the difference. -/
theorem C70_least_squares (pairs : List (Quat ℝ × Quat ℝ)) (x : Vec ℝ 3) :
    onlineCost pairs x = onlineCost pairs (onlineRun pairs).value +
      (1e-6 * lenSq (x - (onlineRun pairs).value) + excitation pairs (x - (onlineRun pairs).value)) := by
  rw [← information_eq, ← deviation_eq, ← deviation_eq, onlineRun_eq]
  exact (C29_least_squares (pairs.map measurement) (measurement_posDef pairs) onlineInit init_posDef).2.2 x

lemma norm2_sq (v : Vec ℝ 3) : norm2 v * norm2 v = lenSq v := by
  rw [norm2_mul_self, ← dot_self]
  rfl

lemma lenSq_nonneg (v : Vec ℝ 3) : 0 ≤ lenSq v := by
  rw [lenSq]
  positivity

/-- The result in closed form. -/
lemma onlineResult_eq (state : ErrorVector ℝ 3) : onlineResult state =
    ⟨state.value 0 / Real.sqrt (1 + lenSq state.value), state.value 1 / Real.sqrt (1 + lenSq state.value),
      state.value 2 / Real.sqrt (1 + lenSq state.value), 1 / Real.sqrt (1 + lenSq state.value)⟩ := by
  have h0 := lenSq_nonneg state.value
  have hp : 0 < Real.sqrt (1 + lenSq state.value) := Real.sqrt_pos.mpr (by linarith)
  have hs : Real.sqrt (1 + lenSq state.value) * Real.sqrt (1 + lenSq state.value) = 1 + lenSq state.value := Real.mul_self_sqrt (by linarith)
  have hone : (1.0 : ℝ) = 1 := by norm_num
  simp only [onlineResult, norm2_sq, hone]
  generalize Real.sqrt (1 + lenSq state.value) = s at *
  have hc : Real.sqrt (1 - norm2 state.value * (1 / s) * (norm2 state.value * (1 / s))) = 1 / s := by
    rw [show 1 - norm2 state.value * (1 / s) * (norm2 state.value * (1 / s)) = (1 / s) * (1 / s) by
      have : norm2 state.value * (1 / s) * (norm2 state.value * (1 / s)) = (s * s - 1) * ((1 / s) * (1 / s)) := by
        rw [hs, ← norm2_sq]
        ring
      rw [this]
      field_simp
      ring]
    exact Real.sqrt_mul_self (by positivity)
  rw [hc]
  simp only [mul_one_div]

/-- **C70** The result is a unit quaternion with positive scalar part, whose axis times the tangent of half the angle is the state. -/
theorem C70_result (pairs : List (Quat ℝ × Quat ℝ)) : UnitQ (onlineResult (onlineRun pairs)) ∧ 0 < (onlineResult (onlineRun pairs)).w ∧
    tangent (onlineResult (onlineRun pairs)) = (onlineRun pairs).value := by
  generalize onlineRun pairs = state
  have h0 := lenSq_nonneg state.value
  have hp : 0 < Real.sqrt (1 + lenSq state.value) := Real.sqrt_pos.mpr (by linarith)
  have hs : Real.sqrt (1 + lenSq state.value) ^ 2 = 1 + lenSq state.value := Real.sq_sqrt (by linarith)
  rw [onlineResult_eq]
  refine ⟨?_, by positivity, ?_⟩
  · rw [UnitQ]
    rw [lenSq] at hs
    simp only [lenSq] at *
    generalize Real.sqrt (1 + (state.value 0 ^ 2 + state.value 1 ^ 2 + state.value 2 ^ 2)) = s at *
    field_simp
    linarith
  · rw [tangent]
    ext i
    fin_cases i <;> simp <;> field_simp

/-- The equation of an exact pair that is not a half turn. -/
lemma exact_equation (X q r : Quat ℝ) (hX : UnitQ X) (hw : X.w ≠ 0) (hq : q.w ≠ 0) (h : ExactPair X (q, r)) :
    axisPart r - axisPart q = (axisPart q + axisPart r) ⨯₃ tangent X := by
  have hsign : ∃ e : ℝ, (e = 1 ∨ e = -1) ∧ (q.mul X).x = e * (X.mul r).x ∧ (q.mul X).y = e * (X.mul r).y ∧ (q.mul X).z = e * (X.mul r).z ∧
      (q.mul X).w = e * (X.mul r).w := by
    rcases h with h | ⟨h1, h2, h3, h4⟩
    · exact ⟨1, Or.inl rfl, by simp only at h; rw [h]; simp⟩
    · exact ⟨-1, Or.inr rfl, by simp only at h1; linarith, by simp only at h2; linarith, by simp only at h3; linarith, by simp only at h4; linarith⟩
  obtain ⟨e, he, h1, h2, h3, h4⟩ := hsign
  simp only [Quat.mul] at h1 h2 h3 h4
  rw [UnitQ] at hX
  have hww : q.w = e * r.w := by
    linear_combination (-(q.w) + e * r.w) * hX + X.x * h1 + X.y * h2 + X.z * h3 + X.w * h4
  -- the equations of the vector parts
  have e1 : X.w * (e * r.x - q.x) = (q.y + e * r.y) * X.z - (q.z + e * r.z) * X.y := by linear_combination -h1 + X.x * hww
  have e2 : X.w * (e * r.y - q.y) = (q.z + e * r.z) * X.x - (q.x + e * r.x) * X.z := by linear_combination -h2 + X.y * hww
  have e3 : X.w * (e * r.z - q.z) = (q.x + e * r.x) * X.y - (q.y + e * r.y) * X.x := by linear_combination -h3 + X.z * hww
  -- both vector parts get the same sign
  have hs : ∃ s : ℝ, axisPart q = ![s * q.x, s * q.y, s * q.z] ∧ axisPart r = ![s * (e * r.x), s * (e * r.y), s * (e * r.z)] := by
    rw [axisPart, axisPart]
    rcases lt_or_gt_of_ne hq with hlt | hgt
    · refine ⟨-1, by rw [if_pos hlt]; simp, ?_⟩
      rcases he with rfl | rfl
      · rw [if_pos (by linarith)]
        simp
      · rw [if_neg (by linarith)]
        simp
    · refine ⟨1, by rw [if_neg (by linarith)]; simp, ?_⟩
      rcases he with rfl | rfl
      · rw [if_neg (by linarith)]
        simp
      · rw [if_pos (by linarith)]
        simp
  obtain ⟨s, hsq, hsr⟩ := hs
  rw [hsq, hsr, tangent, cross_apply]
  ext i
  fin_cases i
  · simp
    field_simp
    linear_combination s * e1
  · simp
    field_simp
    linear_combination s * e2
  · simp
    field_simp
    linear_combination s * e3

lemma error_bound (t : Vec ℝ 3) (pairs : List (Quat ℝ × Quat ℝ)) (hp : ∀ p ∈ pairs, axisPart p.2 - axisPart p.1 = (axisPart p.1 + axisPart p.2) ⨯₃ t)
    (σ : ℝ) (hσ : 0 ≤ σ) (hexc : ∀ v, σ * lenSq v ≤ excitation pairs v) :
    (1e-6 + σ) * Real.sqrt (lenSq ((onlineRun pairs).value - t)) ≤ 1e-6 * Real.sqrt (lenSq t) := by
  set v := (onlineRun pairs).value with hv
  -- the cost around the truth
  have hcost : ∀ y, onlineCost pairs (t + y) = 1e-6 * lenSq (t + y) + excitation pairs y := by
    intro y
    rw [onlineCost, excitation]
    congr 2
    apply List.map_congr_left
    intro p hpp
    rw [hp p hpp, map_add (crossProduct (axisPart p.1 + axisPart p.2)), sub_add_cancel_left, ← dot_self, neg_dotProduct_neg, dot_self]
  have h := C70_least_squares pairs (t + 0)
  have e1 : t + 0 - v = -(v - t) := by abel
  have e2 : v = t + (v - t) := by abel
  rw [← hv, e1] at h
  conv at h => rhs; lhs; rw [e2]
  rw [hcost, hcost] at h
  have hneg : ∀ y : Vec ℝ 3, lenSq (-y) = lenSq y := fun y => by simp [lenSq]
  have hexn : ∀ y, excitation pairs (-y) = excitation pairs y := by
    intro y
    rw [excitation, excitation]
    congr 2
    funext p
    rw [map_neg, hneg]
  have hex0 : excitation pairs 0 = 0 := by
    rw [excitation]
    apply List.sum_eq_zero
    intro x hx
    obtain ⟨p, -, rfl⟩ := List.mem_map.mp hx
    rw [map_zero]
    simp [lenSq]
  rw [hneg, hexn, hex0] at h
  simp only [add_zero] at h
  set d := v - t with hd
  have hadd : lenSq (t + d) = lenSq t + 2 * (t ⬝ᵥ d) + lenSq d := by
    simp only [lenSq, dotProduct, Fin.sum_univ_three, Pi.add_apply]
    ring
  rw [hadd] at h
  have hkey : 1e-6 * lenSq d + excitation pairs d = -(1e-6 * (t ⬝ᵥ d)) := by linarith
  have hle : (1e-6 + σ) * lenSq d ≤ -(1e-6 * (t ⬝ᵥ d)) := by
    have := hexc d
    linarith
  -- Cauchy-Schwarz
  have hcs : (t ⬝ᵥ d) ^ 2 ≤ lenSq t * lenSq d := by
    simp only [lenSq, dotProduct, Fin.sum_univ_three]
    nlinarith [sq_nonneg (t 0 * d 1 - t 1 * d 0), sq_nonneg (t 0 * d 2 - t 2 * d 0), sq_nonneg (t 1 * d 2 - t 2 * d 1)]
  have ht0 := lenSq_nonneg t
  have hd0 := lenSq_nonneg d
  have hst := Real.sqrt_nonneg (lenSq t)
  have hsd := Real.sqrt_nonneg (lenSq d)
  have hcs' : -(t ⬝ᵥ d) ≤ Real.sqrt (lenSq t) * Real.sqrt (lenSq d) := by
    rw [← Real.sqrt_mul ht0]
    apply Real.le_sqrt_of_sq_le
    rw [neg_sq]
    exact hcs
  have hdd : Real.sqrt (lenSq d) * Real.sqrt (lenSq d) = lenSq d := Real.mul_self_sqrt hd0
  rcases hsd.eq_or_lt with h0 | hpos
  · rw [← h0, mul_zero]
    positivity
  · have : (1e-6 + σ) * Real.sqrt (lenSq d) * Real.sqrt (lenSq d) ≤ 1e-6 * Real.sqrt (lenSq t) * Real.sqrt (lenSq d) := by
      rw [mul_assoc, hdd]
      nlinarith
    exact le_of_mul_le_mul_right this hpos

/-- **C70** For exact pairs that are not half turns the error of the state is at most the share of the small term: if the pairs determine every direction
with at least the strength `σ`, then it is at most `1e-6 / (1e-6 + σ)` times the length of the true vector. Missing: pairs of half turns (refuted below)
and mountings that are half turns, for which the true vector is infinite. -/
theorem C70_exact_partial (X : Quat ℝ) (hX : UnitQ X) (hw : X.w ≠ 0) (pairs : List (Quat ℝ × Quat ℝ)) (hp : ∀ p ∈ pairs, ExactPair X p ∧ p.1.w ≠ 0)
    (σ : ℝ) (hσ : 0 ≤ σ) (hexc : ∀ v, σ * lenSq v ≤ excitation pairs v) :
    (1e-6 + σ) * Real.sqrt (lenSq ((onlineRun pairs).value - tangent X)) ≤ 1e-6 * Real.sqrt (lenSq (tangent X)) :=
  error_bound _ pairs (fun p hpp => exact_equation X p.1 p.2 hX hw (hp p hpp).2 (hp p hpp).1) σ hσ hexc

/-- **C70** For an endless sequence of exact pairs that are not half turns and that determine every direction ever more strongly, the results converge to
the mounting. -/
theorem C70_convergence_partial (X : Quat ℝ) (hX : UnitQ X) (hw : 0 < X.w) (pairs : ℕ → Quat ℝ × Quat ℝ)
    (hp : ∀ i, ExactPair X (pairs i) ∧ (pairs i).1.w ≠ 0)
    (hexc : ∀ C : ℝ, ∃ N, ∀ n ≥ N, ∀ v, C * lenSq v ≤ excitation ((List.range n).map pairs) v) :
    let result := fun n => onlineResult (onlineRun ((List.range n).map pairs))
    Filter.Tendsto (fun n => (result n).x) Filter.atTop (nhds X.x) ∧ Filter.Tendsto (fun n => (result n).y) Filter.atTop (nhds X.y) ∧
      Filter.Tendsto (fun n => (result n).z) Filter.atTop (nhds X.z) ∧ Filter.Tendsto (fun n => (result n).w) Filter.atTop (nhds X.w) := by
  intro result
  set t := tangent X with ht
  have hval : ∀ i, Filter.Tendsto (fun n => (onlineRun ((List.range n).map pairs)).value i) Filter.atTop (nhds (t i)) := by
    intro i
    rw [Metric.tendsto_atTop]
    intro ε hε
    set L := Real.sqrt (lenSq t) with hL
    have hL0 : 0 ≤ L := Real.sqrt_nonneg _
    obtain ⟨N, hN⟩ := hexc (1e-6 * (L + 1) / ε)
    refine ⟨N, fun n hn => ?_⟩
    have hC : 0 ≤ 1e-6 * (L + 1) / ε := by positivity
    have h := C70_exact_partial X hX hw.ne' ((List.range n).map pairs) (by
      intro p hpp
      obtain ⟨j, -, rfl⟩ := List.mem_map.mp hpp
      exact hp j) _ hC (hN n hn)
    rw [← ht, ← hL] at h
    set d := (onlineRun ((List.range n).map pairs)).value - t with hd
    have hs0 := Real.sqrt_nonneg (lenSq d)
    have h1 : 1e-6 * (L + 1) / ε * Real.sqrt (lenSq d) ≤ 1e-6 * L := by nlinarith
    have h2 : Real.sqrt (lenSq d) < ε := by
      rw [div_mul_eq_mul_div, div_le_iff₀ hε] at h1
      nlinarith
    have h3 : |d i| ≤ Real.sqrt (lenSq d) := by
      apply Real.abs_le_sqrt
      rw [lenSq]
      fin_cases i
      · change d 0 ^ 2 ≤ _
        nlinarith [sq_nonneg (d 1), sq_nonneg (d 2)]
      · change d 1 ^ 2 ≤ _
        nlinarith [sq_nonneg (d 0), sq_nonneg (d 2)]
      · change d 2 ^ 2 ≤ _
        nlinarith [sq_nonneg (d 0), sq_nonneg (d 1)]
    rw [Real.dist_eq]
    exact lt_of_le_of_lt h3 h2
  have hlen : Filter.Tendsto (fun n => Real.sqrt (1 + lenSq (onlineRun ((List.range n).map pairs)).value)) Filter.atTop
      (nhds (Real.sqrt (1 + lenSq t))) := by
    apply Filter.Tendsto.sqrt
    apply Filter.Tendsto.const_add
    exact (((hval 0).pow 2).add ((hval 1).pow 2)).add ((hval 2).pow 2)
  have hsq : Real.sqrt (1 + lenSq t) = 1 / X.w := by
    have : 1 + lenSq t = (1 / X.w) ^ 2 := by
      rw [ht, lenSq, tangent]
      rw [UnitQ] at hX
      simp
      field_simp
      linarith
    rw [this]
    exact Real.sqrt_sq (by positivity)
  rw [hsq] at hlen
  have hne : (1 / X.w : ℝ) ≠ 0 := by positivity
  have hres : result = fun n => ⟨(onlineRun ((List.range n).map pairs)).value 0 / Real.sqrt (1 + lenSq (onlineRun ((List.range n).map pairs)).value),
      (onlineRun ((List.range n).map pairs)).value 1 / Real.sqrt (1 + lenSq (onlineRun ((List.range n).map pairs)).value),
      (onlineRun ((List.range n).map pairs)).value 2 / Real.sqrt (1 + lenSq (onlineRun ((List.range n).map pairs)).value),
      1 / Real.sqrt (1 + lenSq (onlineRun ((List.range n).map pairs)).value)⟩ := by
    funext n
    exact onlineResult_eq _
  rw [hres]
  have hx : X.x = t 0 / (1 / X.w) := by
    rw [ht, tangent]
    simp
    field_simp
  have hy : X.y = t 1 / (1 / X.w) := by
    rw [ht, tangent]
    simp
    field_simp
  have hz : X.z = t 2 / (1 / X.w) := by
    rw [ht, tangent]
    simp
    field_simp
  have hww : X.w = 1 / (1 / X.w) := by simp
  refine ⟨?_, ?_, ?_, ?_⟩
  · rw [hx]
    exact (hval 0).div hlen hne
  · rw [hy]
    exact (hval 1).div hlen hne
  · rw [hz]
    exact (hval 2).div hlen hne
  · have := (tendsto_const_nhds (x := (1 : ℝ))).div hlen hne
    rw [← hww] at this
    exact this

/-- **C70** Half turns do not work: there is a mounting and there are two exact pairs of half turns that determine every direction, for which the result is
nearly the inverse of the mounting, by 180 degrees away from it. -/
theorem C70_half_turn_refuted : ∃ (X : Quat ℝ) (pairs : List (Quat ℝ × Quat ℝ)), UnitQ X ∧ (∀ p ∈ pairs, ExactPair X p ∧ UnitQ p.1 ∧ UnitQ p.2) ∧
    (∀ v, 1 * lenSq v ≤ excitation pairs v) ∧ |inner4 (onlineResult (onlineRun pairs)) X| < 1e-5 := by
  set pairs : List (Quat ℝ × Quat ℝ) := [(⟨1, 0, 0, 0⟩, ⟨-7 / 25, 24 / 25, 0, 0⟩), (⟨0, 1, 0, 0⟩, ⟨-24 / 25, -7 / 25, 0, 0⟩)] with hpairs
  have hexc : ∀ v, 1 * lenSq v ≤ excitation pairs v := by
    intro v
    simp [hpairs, excitation, axisPart, cross_apply, lenSq]
    nlinarith [sq_nonneg (v 0), sq_nonneg (v 1), sq_nonneg (v 2)]
  refine ⟨⟨0, 0, 3 / 5, 4 / 5⟩, pairs, by norm_num [UnitQ], ?_, hexc, ?_⟩
  · intro p hp
    simp only [hpairs, List.mem_cons, List.not_mem_nil, or_false] at hp
    rcases hp with rfl | rfl
    · refine ⟨Or.inr ?_, by norm_num [UnitQ], by norm_num [UnitQ]⟩
      simp only [Quat.mul]
      norm_num
    · refine ⟨Or.inr ?_, by norm_num [UnitQ], by norm_num [UnitQ]⟩
      simp only [Quat.mul]
      norm_num
  · have h := error_bound ![0, 0, -4 / 3] pairs (by
      intro p hp
      simp only [hpairs, List.mem_cons, List.not_mem_nil, or_false] at hp
      rcases hp with rfl | rfl
      · ext i
        fin_cases i <;> simp [axisPart, cross_apply] <;> norm_num
      · ext i
        fin_cases i <;> simp [axisPart, cross_apply] <;> norm_num) 1 (by norm_num) hexc
    set v := (onlineRun pairs).value with hv
    have hl : Real.sqrt (lenSq ![0, 0, -4 / 3]) = 4 / 3 := by
      rw [show lenSq (![0, 0, -4 / 3] : Vec ℝ 3) = (4 / 3) ^ 2 by simp [lenSq]; norm_num]
      exact Real.sqrt_sq (by norm_num)
    rw [hl] at h
    have h3 : |v 2 + 4 / 3| ≤ Real.sqrt (lenSq (v - ![0, 0, -4 / 3])) := by
      apply Real.abs_le_sqrt
      have : (v - ![0, 0, -4 / 3] : Vec ℝ 3) 2 = v 2 + 4 / 3 := by
        simp
        ring
      rw [lenSq, this]
      nlinarith [sq_nonneg ((v - ![0, 0, -4 / 3] : Vec ℝ 3) 0), sq_nonneg ((v - ![0, 0, -4 / 3] : Vec ℝ 3) 1)]
    have h4 : |v 2 + 4 / 3| ≤ 4 / 3 * 1e-6 := by
      have := abs_nonneg (v 2 + 4 / 3)
      nlinarith
    have hs : 1 ≤ Real.sqrt (1 + lenSq v) := by
      rw [Real.one_le_sqrt]
      linarith [lenSq_nonneg v]
    have hin : inner4 (onlineResult (onlineRun pairs)) ⟨0, 0, 3 / 5, 4 / 5⟩ = 3 / 5 * (v 2 + 4 / 3) / Real.sqrt (1 + lenSq v) := by
      rw [onlineResult_eq, ← hv, inner4]
      ring
    rw [hin, abs_div, abs_of_pos (show 0 < Real.sqrt (1 + lenSq v) by linarith), div_lt_iff₀ (by linarith), abs_mul,
      abs_of_pos (show (0 : ℝ) < 3 / 5 by norm_num)]
    calc 3 / 5 * |v 2 + 4 / 3| ≤ 3 / 5 * (4 / 3 * 1e-6) := by linarith
      _ < 1e-5 * 1 := by norm_num
      _ ≤ 1e-5 * Real.sqrt (1 + lenSq v) := by
        apply mul_le_mul_of_nonneg_left hs (by norm_num)

/-- The hypotheses of the exactness theorems: a mounting by a turn about `z` and turns about `x` and `y`. -/
example : ∃ (X : Quat ℝ) (pairs : List (Quat ℝ × Quat ℝ)), UnitQ X ∧ X.w ≠ 0 ∧ (∀ p ∈ pairs, ExactPair X p ∧ p.1.w ≠ 0) ∧
    ∀ v, 1 * lenSq v ≤ excitation pairs v := by
  refine ⟨⟨0, 0, 3 / 5, 4 / 5⟩, [(⟨4 / 5, 0, 0, 3 / 5⟩, ⟨28 / 125, -96 / 125, 0, 3 / 5⟩), (⟨0, 4 / 5, 0, 3 / 5⟩, ⟨96 / 125, 28 / 125, 0, 3 / 5⟩)],
    by norm_num [UnitQ], by norm_num, ?_, ?_⟩
  · intro p hp
    simp only [List.mem_cons, List.not_mem_nil, or_false] at hp
    rcases hp with rfl | rfl
    · refine ⟨Or.inl ?_, by norm_num⟩
      simp only [Quat.mul]
      norm_num
    · refine ⟨Or.inl ?_, by norm_num⟩
      simp only [Quat.mul]
      norm_num
  · intro v
    have e : ∀ a b : ℝ, (![a, b, 0] : Vec ℝ 3) 2 = 0 := fun _ _ => rfl
    simp [excitation, axisPart, cross_apply, lenSq, show ¬ (3 / 5 : ℝ) < 0 by norm_num, e]
    nlinarith [sq_nonneg (v 0), sq_nonneg (v 1), sq_nonneg (v 2)]

/-! ## RotationHecKalmanFilter -/

lemma rotHec_linear (a b : Quat ℝ) (x : Vec ℝ 4) : rotHecMeasurement a b x = rotHecMeasurementJacobian a b *ᵥ x := by
  ext i
  fin_cases i <;> simp [rotHecMeasurement, rotHecMeasurementJacobian, Matrix.mulVec, dotProduct, Fin.sum_univ_four, Quat.mul, Quat.fromVector] <;> ring

lemma norm_unit {x : Vec ℝ 4} (hx : x ≠ 0) : UnitQ (Quat.fromVector (vectorNormalize x)) := by
  have h0 := norm2_ne_zero hx
  have h1 := norm2_mul_self x
  rw [Fin.sum_univ_four] at h1
  simp only [UnitQ, Quat.fromVector, vectorNormalize]
  generalize norm2 x = s at *
  field_simp
  linarith

lemma one_posDef {n : ℕ} {c : ℝ} (hc : 0 < c) : (c • (1 : Mat ℝ n n)).PosDef := Matrix.PosDef.one.smul hc

lemma inv_smul_one {n : ℕ} {c : ℝ} (hc : c ≠ 0) : (c • (1 : Mat ℝ n n))⁻¹ = c⁻¹ • 1 := by
  apply Matrix.inv_eq_right_inv
  simp only [Matrix.mul_smul, Matrix.mul_one, smul_smul]
  rw [inv_mul_cancel₀ hc, one_smul]

/-- The update before the normalisation. -/
noncomputable def updated (state : ErrorVector ℝ 4) (a b : Quat ℝ) : ErrorVector ℝ 4 :=
  kalmanUpdate (fun x => (rotHecMeasurement a (b.negateIfCloser a) x, rotHecMeasurementJacobian a (b.negateIfCloser a))) state
    ⟨0, (1e-2 : ℝ) • 1⟩ 0 (by omega)

lemma updated_spec (state : ErrorVector ℝ 4) (hP : state.covariance.PosDef) (a b : Quat ℝ) :
    let H := rotHecMeasurementJacobian a (b.negateIfCloser a)
    (updated state a b).covariance.PosDef ∧ ((updated state a b).covariance)⁻¹ = (state.covariance)⁻¹ + (100 : ℝ) • (Hᵀ * H) ∧
      ((updated state a b).covariance)⁻¹ *ᵥ (updated state a b).value = (state.covariance)⁻¹ *ᵥ state.value := by
  intro H
  obtain ⟨h1, h2, h3⟩ := C29_information (fun x => (rotHecMeasurement a (b.negateIfCloser a) x, H)) state ⟨0, (1e-2 : ℝ) • 1⟩ hP
    (one_posDef (by norm_num))
  refine ⟨h1, ?_, ?_⟩
  · refine h2.trans ?_
    congr 1
    simp only
    rw [inv_smul_one (by norm_num)]
    simp only [Matrix.mul_smul, Matrix.smul_mul, Matrix.mul_one]
    norm_num
  · refine h3.trans ?_
    simp only
    rw [rotHec_linear, zero_sub, neg_add_cancel, Matrix.mulVec_zero, add_zero]

lemma updated_ne_zero (state : ErrorVector ℝ 4) (hP : state.covariance.PosDef) (hv : state.value ≠ 0) (a b : Quat ℝ) : (updated state a b).value ≠ 0 := by
  intro h
  obtain ⟨-, -, h3⟩ := updated_spec state hP a b
  rw [h, Matrix.mulVec_zero] at h3
  apply hv
  have := congrArg (state.covariance *ᵥ ·) h3
  simp only [Matrix.mulVec_zero, Matrix.mulVec_mulVec] at this
  rw [Matrix.mul_nonsing_inv _ ((Matrix.isUnit_iff_isUnit_det _).mp hP.isUnit), Matrix.one_mulVec] at this
  exact this.symm

lemma filterAdd_eq (state : ErrorVector ℝ 4) (hP : state.covariance.PosDef) (hv : state.value ≠ 0) (a b : Quat ℝ) : ∃ C : Mat ℝ 4 4, C.PosDef ∧
    filterAdd state a b = some ⟨vectorNormalize (updated state a b).value, C⟩ := by
  refine ⟨(transformWithCovariance (fun x => (vectorNormalize x, vectorNormalizeJacobian x)) (updated state a b)).covariance + (1e-12 : ℝ) • 1, ?_,
    if_neg (updated_ne_zero state hP hv a b)⟩
  · apply Matrix.PosDef.posSemidef_add _ (one_posDef (by norm_num))
    have := (updated_spec state hP a b).1.posSemidef
    exact (C28_psd (n := 4) (m := 4) (k := 4) (fun x => (vectorNormalize x, vectorNormalizeJacobian x)) (updated state a b) this
      (fun _ _ => (0, 0, 0)) (updated state a b) this).1

lemma unit_ne_zero {x : Vec ℝ 4} (h : UnitQ (Quat.fromVector x)) : x ≠ 0 := by
  rintro rfl
  simp [UnitQ, Quat.fromVector] at h

/-- **C71** Over any history of pairs of quaternions the filter never divides by zero, its state is a unit quaternion and its covariance is positive definite. -/
theorem C71_valid (pairs : List (Quat ℝ × Quat ℝ)) : ∃ s, filterRun pairs = some s ∧ UnitQ (filterResult s) ∧ s.covariance.PosDef := by
  have key : ∀ (pairs : List (Quat ℝ × Quat ℝ)) (s : ErrorVector ℝ 4), UnitQ (filterResult s) → s.covariance.PosDef →
      ∃ s', pairs.foldlM (fun s p => filterAdd s p.1 p.2) s = some s' ∧ UnitQ (filterResult s') ∧ s'.covariance.PosDef := by
    intro pairs
    induction pairs with
    | nil => intro s h1 h2; exact ⟨s, rfl, h1, h2⟩
    | cons p l ih =>
      intro s h1 h2
      have hne := unit_ne_zero h1
      obtain ⟨C, hC, he⟩ := filterAdd_eq s h2 hne p.1 p.2
      obtain ⟨s', h3, h4, h5⟩ := ih ⟨_, C⟩ (norm_unit (updated_ne_zero s h2 hne p.1 p.2)) hC
      refine ⟨s', ?_, h4, h5⟩
      rw [List.foldlM_cons, he]
      exact h3
  refine key pairs filterInit ?_ ?_
  · change (0 : ℝ) ^ 2 + 0 ^ 2 + 0 ^ 2 + 1 ^ 2 = 1
    norm_num
  · exact one_posDef (by norm_num)

/-- The nearer representative is the right one if the turn is by less than 90 degrees. -/
lemma right_sign (X a b : Quat ℝ) (hX : UnitQ X) (ha : UnitQ a) (hb : UnitQ b) (hsmall : 1 / 2 < a.w ^ 2) (h : ExactPair X (a, b)) :
    a.mul X = X.mul (b.negateIfCloser a) := by
  have hsign : ∃ e : ℝ, (e = 1 ∨ e = -1) ∧ (a.mul X).x = e * (X.mul b).x ∧ (a.mul X).y = e * (X.mul b).y ∧ (a.mul X).z = e * (X.mul b).z ∧
      (a.mul X).w = e * (X.mul b).w := by
    rcases h with h | ⟨h1, h2, h3, h4⟩
    · exact ⟨1, Or.inl rfl, by simp only at h; rw [h]; simp⟩
    · exact ⟨-1, Or.inr rfl, by simp only at h1; linarith, by simp only at h2; linarith, by simp only at h3; linarith, by simp only at h4; linarith⟩
  obtain ⟨e, he, h1, h2, h3, h4⟩ := hsign
  have hww : a.w = e * b.w := by
    simp only [Quat.mul] at h1 h2 h3 h4
    rw [UnitQ] at hX
    linear_combination (-(a.w) + e * b.w) * hX + X.x * h1 + X.y * h2 + X.z * h3 + X.w * h4
  rw [UnitQ] at ha hb
  rcases he with rfl | rfl
  · have hp : 0 ≤ b.x * a.x + b.y * a.y + b.z * a.z + b.w * a.w := by
      rw [one_mul] at hww
      rw [hww] at ha hsmall ⊢
      nlinarith [sq_nonneg (a.x + b.x), sq_nonneg (a.y + b.y), sq_nonneg (a.z + b.z)]
    have : b.negateIfCloser a = b := if_pos hp
    rw [this]
    ext <;> linarith
  · have hp : ¬ 0 ≤ b.x * a.x + b.y * a.y + b.z * a.z + b.w * a.w := by
      rw [hww] at ha hsmall ⊢
      nlinarith [sq_nonneg (a.x - b.x), sq_nonneg (a.y - b.y), sq_nonneg (a.z - b.z)]
    have : b.negateIfCloser a = ⟨-b.x, -b.y, -b.z, -b.w⟩ := if_neg hp
    rw [this]
    simp only [Quat.mul] at h1 h2 h3 h4 ⊢
    ext
    · simp only; linarith
    · simp only; linarith
    · simp only; linarith
    · simp only; linarith

lemma truth_null (X a b : Quat ℝ) (h : a.mul X = X.mul b) : rotHecMeasurementJacobian a b *ᵥ X.toVector = 0 := by
  rw [← rotHec_linear]
  have e : Quat.fromVector X.toVector = X := rfl
  simp only [rotHecMeasurement, e, h, sub_self]
  ext i
  fin_cases i <;> rfl

lemma dot4 (x y : Vec ℝ 4) : x ⬝ᵥ y = inner4 (Quat.fromVector x) (Quat.fromVector y) := by
  simp only [dotProduct, Fin.sum_univ_four, inner4, Quat.fromVector]

lemma inner4_normalize (x : Vec ℝ 4) (X : Quat ℝ) :
    inner4 (Quat.fromVector (vectorNormalize x)) X = (x ⬝ᵥ X.toVector) / norm2 x := by
  simp only [inner4, Quat.fromVector, vectorNormalize, dotProduct, Fin.sum_univ_four, Quat.toVector, div_eq_mul_inv, one_mul]
  simp only [Matrix.cons_val]
  ring

/-- **C71** The true mounting is a fixed point: exact pairs of turns by less than 90 degrees do not move a state that is the mounting, whatever the
covariance. Missing: larger turns (see the refutation below). -/
theorem C71_fixed_partial (X : Quat ℝ) (hX : UnitQ X) (state : ErrorVector ℝ 4) (hP : state.covariance.PosDef) (hs : filterResult state = X)
    (pairs : List (Quat ℝ × Quat ℝ)) (hp : ∀ p ∈ pairs, ExactPair X p ∧ UnitQ p.1 ∧ UnitQ p.2 ∧ 1 / 2 < p.1.w ^ 2) :
    ∃ s, pairs.foldlM (fun s p => filterAdd s p.1 p.2) state = some s ∧ filterResult s = X := by
  induction pairs generalizing state with
  | nil => exact ⟨state, rfl, hs⟩
  | cons p l ih =>
    obtain ⟨h1, h2, h3, h4⟩ := hp p (by simp)
    have hsv : state.value = X.toVector := by
      rw [← hs]
      ext i
      fin_cases i <;> rfl
    have hne : state.value ≠ 0 := unit_ne_zero (by rw [← hs] at hX; exact hX)
    obtain ⟨C, hC, he⟩ := filterAdd_eq state hP hne p.1 p.2
    have hu : (updated state p.1 p.2).value = state.value := by
      apply C29_perfect_prediction
      have hinp : (fun i : Fin 4 => state.value ⟨0 + i, by omega⟩) = state.value := by
        funext i
        congr 1
        ext
        simp
      rw [hinp]
      simp only
      rw [rotHec_linear, hsv, truth_null X p.1 _ (right_sign X p.1 p.2 hX h2 h3 h4 h1)]
    have hn : norm2 state.value = 1 := by
      rw [norm2, Fin.sum_univ_four, hsv]
      rw [UnitQ] at hX
      rw [Real.sqrt_eq_one]
      simp [Quat.toVector]
      linarith
    have hv : vectorNormalize (updated state p.1 p.2).value = state.value := by
      rw [hu]
      funext i
      rw [vectorNormalize, hn]
      ring
    rw [hv] at he
    obtain ⟨s, h5, h6⟩ := ih ⟨state.value, C⟩ hC hs (fun q hq => hp q (by simp [hq]))
    refine ⟨s, ?_, h6⟩
    rw [List.foldlM_cons, he]
    exact h5

/-- **C71** The first exact pair does not increase the angle to the true mounting, if it is a turn by less than 90 degrees. Missing: larger turns (refuted
below) and later pairs. -/
theorem C71_first_partial (X : Quat ℝ) (hX : UnitQ X) (a b : Quat ℝ) (ha : UnitQ a) (hb : UnitQ b) (hsmall : 1 / 2 < a.w ^ 2) (h : ExactPair X (a, b)) :
    ∃ s, filterRun [(a, b)] = some s ∧ inner4 (filterResult filterInit) X ^ 2 ≤ inner4 (filterResult s) X ^ 2 := by
  have hP : filterInit.covariance.PosDef := one_posDef (by norm_num)
  have hu : UnitQ (filterResult filterInit) := by
    change (0 : ℝ) ^ 2 + 0 ^ 2 + 0 ^ 2 + 1 ^ 2 = 1
    norm_num
  have hne := unit_ne_zero hu
  obtain ⟨C, -, he⟩ := filterAdd_eq filterInit hP hne a b
  refine ⟨_, by rw [filterRun, List.foldlM_cons, he]; rfl, ?_⟩
  obtain ⟨-, h2, h3⟩ := updated_spec filterInit hP a b
  have hinv : (filterInit.covariance)⁻¹ = (1e-2 : ℝ) • (1 : Mat ℝ 4 4) := by
    rw [filterInit, inv_smul_one (by norm_num)]
    norm_num
  have hne' := updated_ne_zero filterInit hP hne a b
  set x := filterInit.value with hx
  set x' := (updated filterInit a b).value with hx'
  set H := rotHecMeasurementJacobian a (b.negateIfCloser a) with hH
  rw [h2, hinv, Matrix.add_mulVec, Matrix.smul_mulVec, Matrix.smul_mulVec, Matrix.smul_mulVec, Matrix.one_mulVec, Matrix.one_mulVec, ← Matrix.mulVec_mulVec] at h3
  have hnull : H *ᵥ X.toVector = 0 := truth_null X a _ (right_sign X a b hX ha hb hsmall h)
  -- the component along the truth is kept
  have hkeep : X.toVector ⬝ᵥ x' = X.toVector ⬝ᵥ x := by
    have := congrArg (X.toVector ⬝ᵥ ·) h3
    simp only [dotProduct_add, dotProduct_smul, smul_eq_mul] at this
    rw [Matrix.dotProduct_mulVec, Matrix.vecMul_transpose, hnull, zero_dotProduct] at this
    linarith
  -- the length does not increase
  have hlen : x' ⬝ᵥ x' ≤ 1 := by
    have := congrArg (x' ⬝ᵥ ·) h3
    simp only [dotProduct_add, dotProduct_smul, smul_eq_mul] at this
    rw [Matrix.dotProduct_mulVec, Matrix.vecMul_transpose] at this
    have h0 : 0 ≤ (H *ᵥ x') ⬝ᵥ (H *ᵥ x') := by
      simp only [dotProduct]
      exact Finset.sum_nonneg fun i _ => mul_self_nonneg _
    have hle : x' ⬝ᵥ x' ≤ x' ⬝ᵥ x := by linarith
    have hxx : x' ⬝ᵥ x = x' 3 := by
      rw [hx, filterInit]
      simp [dotProduct, Fin.sum_univ_four]
    rw [hxx] at hle
    simp only [dotProduct, Fin.sum_univ_four] at hle ⊢
    nlinarith [mul_self_nonneg (x' 0), mul_self_nonneg (x' 1), mul_self_nonneg (x' 2), sq_nonneg (x' 3 - 1)]
  have hpos : 0 < norm2 x' := lt_of_le_of_ne (Real.sqrt_nonneg _) (Ne.symm (norm2_ne_zero hne'))
  have hnn : norm2 x' ^ 2 ≤ 1 := by
    rw [sq, norm2_mul_self]
    exact hlen
  change inner4 (Quat.fromVector x) X ^ 2 ≤ inner4 (Quat.fromVector (vectorNormalize x')) X ^ 2
  rw [inner4_normalize, dotProduct_comm, hkeep, div_pow, le_div_iff₀ (by positivity)]
  have e : X.toVector ⬝ᵥ x = inner4 (Quat.fromVector x) X := by
    rw [dotProduct_comm, dot4]
    rfl
  rw [e]
  nlinarith [sq_nonneg (inner4 (Quat.fromVector x) X)]

/-- **C71** For larger turns the filter takes the wrong representative of the second rotation: there is a mounting and an exact pair for which the first update
moves the state away from the mounting, to almost the opposite rotation. -/
theorem C71_first_refuted : ∃ (X a b : Quat ℝ) (s : ErrorVector ℝ 4), UnitQ X ∧ UnitQ a ∧ UnitQ b ∧ ExactPair X (a, b) ∧ filterRun [(a, b)] = some s ∧
    inner4 (filterResult filterInit) X ^ 2 = 9 / 25 ∧ inner4 (filterResult s) X ^ 2 < 1 / 100 := by
  have hP : filterInit.covariance.PosDef := one_posDef (by norm_num)
  have hu : UnitQ (filterResult filterInit) := by
    change (0 : ℝ) ^ 2 + 0 ^ 2 + 0 ^ 2 + 1 ^ 2 = 1
    norm_num
  have hne := unit_ne_zero hu
  set a : Quat ℝ := ⟨24 / 25, 0, 0, 7 / 25⟩ with ha
  set b : Quat ℝ := ⟨-168 / 625, -576 / 625, 0, 7 / 25⟩ with hb
  set X : Quat ℝ := ⟨0, 0, 4 / 5, 3 / 5⟩ with hX
  obtain ⟨C, -, he⟩ := filterAdd_eq filterInit hP hne a b
  refine ⟨X, a, b, _, by norm_num [UnitQ, hX], by norm_num [UnitQ, ha], by norm_num [UnitQ, hb], Or.inl ?_, by rw [filterRun, List.foldlM_cons, he]; rfl, ?_, ?_⟩
  · simp only [Quat.mul, ha, hb, hX]
    norm_num
  · change (0 * 0 + 0 * 0 + 0 * (4 / 5) + 1 * (3 / 5) : ℝ) ^ 2 = 9 / 25
    norm_num
  · obtain ⟨hpd, h2, h3⟩ := updated_spec filterInit hP a b
    have hinv : (filterInit.covariance)⁻¹ = (1e-2 : ℝ) • (1 : Mat ℝ 4 4) := by
      rw [filterInit, inv_smul_one (by norm_num)]
      norm_num
    have hb' : b.negateIfCloser a = ⟨168 / 625, 576 / 625, 0, -7 / 25⟩ := by
      simp only [Quat.negateIfCloser, ha, hb]
      norm_num
    rw [hb'] at h2
    -- the updated state
    have hval : (updated filterInit a b).value = ![0, 0, 3 / 5 / 40001 * (4 / 5) - 4 / 5 / 3137 * (3 / 5), 3 / 5 / 40001 * (3 / 5) + 4 / 5 / 3137 * (4 / 5)] := by
      have hcand : ((updated filterInit a b).covariance)⁻¹ *ᵥ ![0, 0, 3 / 5 / 40001 * (4 / 5) - 4 / 5 / 3137 * (3 / 5),
          3 / 5 / 40001 * (3 / 5) + 4 / 5 / 3137 * (4 / 5)] = (filterInit.covariance)⁻¹ *ᵥ filterInit.value := by
        rw [h2, hinv, Matrix.add_mulVec, Matrix.smul_mulVec, Matrix.smul_mulVec, Matrix.smul_mulVec, Matrix.one_mulVec, Matrix.one_mulVec, ← Matrix.mulVec_mulVec]
        ext i
        fin_cases i <;>
          simp [rotHecMeasurementJacobian, Matrix.mulVec, dotProduct, Fin.sum_univ_four, filterInit, ha] <;> norm_num
      have := congrArg ((updated filterInit a b).covariance *ᵥ ·) (h3.trans hcand.symm)
      simp only [Matrix.mulVec_mulVec] at this
      rwa [Matrix.mul_nonsing_inv _ ((Matrix.isUnit_iff_isUnit_det _).mp hpd.isUnit), Matrix.one_mulVec, Matrix.one_mulVec] at this
    change inner4 (Quat.fromVector (vectorNormalize (updated filterInit a b).value)) X ^ 2 < 1 / 100
    rw [inner4_normalize, div_pow, sq (norm2 _), norm2_mul_self, hval]
    simp [dotProduct, Fin.sum_univ_four, Quat.toVector, hX]
    norm_num

end Ubitrack.RotationHandEye

import Verif.Props.KalmanHistory

/-! # C29: the order of linear measurements does not matter -/

namespace Ubitrack.Stochastic

open Spec
open scoped Matrix

variable {m n : ℕ}

/-- **C29** The order in which linear measurements arrive does not change the state they lead to. -/
theorem C29_order (ms ms' : List (LinearMeasurement m n)) (hperm : ms.Perm ms') (hms : ∀ a ∈ ms, a.R.PosDef) (state : ErrorVector ℝ n)
    (hP : state.covariance.PosDef) : linearRun state ms = linearRun state ms' := by
  obtain ⟨p1, c1, d1⟩ := C29_least_squares ms hms state hP
  obtain ⟨p2, c2, d2⟩ := C29_least_squares ms' (fun a ha => hms a (hperm.mem_iff.mpr ha)) state hP
  have hc : (linearRun state ms).covariance⁻¹ = (linearRun state ms').covariance⁻¹ := by
    rw [c1, c2, (hperm.map fun a => a.Hᵀ * a.R⁻¹ * a.H).sum_eq]
  have hd : ∀ x, deviation state ms x = deviation state ms' x := by
    intro x
    unfold deviation
    rw [(hperm.map _).sum_eq]
  have e1 := d1 (linearRun state ms').value
  have e2 := d2 (linearRun state ms).value
  rw [hd, hd] at e1
  rw [← hc] at e2
  apply ErrorVector.ext
  · by_contra hne
    have h1 := p1.inv.dotProduct_mulVec_pos (x := (linearRun state ms').value - (linearRun state ms).value)
      (sub_ne_zero.mpr fun h => hne h.symm)
    have h2 := p1.inv.dotProduct_mulVec_pos (x := (linearRun state ms).value - (linearRun state ms').value)
      (sub_ne_zero.mpr hne)
    simp only [star_trivial] at h1 h2
    linarith
  · rw [← Matrix.nonsing_inv_nonsing_inv _ ((Matrix.isUnit_iff_isUnit_det _).mp p1.isUnit), hc,
      Matrix.nonsing_inv_nonsing_inv _ ((Matrix.isUnit_iff_isUnit_det _).mp p2.isUnit)]

/-- Two different measurements of a number, in both orders. -/
example : ∃ a b : LinearMeasurement 1 1, a.z ≠ b.z ∧ [a, b].Perm [b, a] ∧ (∀ c ∈ [a, b], c.R.PosDef) ∧ (1 : Mat ℝ 1 1).PosDef := by
  refine ⟨⟨1, fun _ => 0, 1⟩, ⟨1, fun _ => 3, 1⟩, fun h => ?_, List.Perm.swap _ _ _, fun c hc => ?_, Matrix.PosDef.one⟩
  · have := congrFun h 0
    norm_num at this
  · simp only [List.mem_cons, List.not_mem_nil, or_false] at hc
    rcases hc with rfl | rfl <;> exact Matrix.PosDef.one

end Ubitrack.Stochastic

import Verif.Spec.Jacobian
import Mathlib.Analysis.Calculus.Deriv.Add
import Mathlib.Analysis.Calculus.Deriv.Mul
import Mathlib.Analysis.Calculus.Deriv.Inv
import Mathlib.Analysis.Calculus.Deriv.Pow
import Mathlib.Analysis.Calculus.FDeriv.Mul
import Mathlib.Analysis.Calculus.FDeriv.Pow
import Mathlib.Analysis.Calculus.Deriv.Pi
import Mathlib.Analysis.Calculus.Deriv.Prod
import Mathlib.Analysis.Calculus.FDeriv.Comp
import Mathlib.Analysis.SpecialFunctions.Sqrt

/-!
# Proving that a matrix is the Jacobian, by partial derivatives
-/

namespace Ubitrack.Spec

variable {m n k : ℕ}

/-- The partial derivatives of a differentiable function determine the Jacobian. -/
theorem isJacobian_of_partials {f : Vec ℝ n → Vec ℝ m} {x : Vec ℝ n} {J : Mat ℝ m n} (hd : DifferentiableAt ℝ f x)
    (h : ∀ i j, HasDerivAt (fun s : ℝ => f (Function.update x j s) i) (J i j) (x j)) : IsJacobian f x J := by
  unfold IsJacobian
  have hf := hd.hasFDerivAt
  suffices e : fderiv ℝ f x = LinearMap.toContinuousLinearMap (Matrix.mulVecLin J) by rwa [e] at hf
  have key : ∀ j, fderiv ℝ f x (Pi.single j 1) = fun i => J i j := by
    intro j
    have hu : HasDerivAt (fun s : ℝ => Function.update x j s) (Pi.single j 1) (x j) := hasDerivAt_update x j (x j)
    have hx : Function.update x j (x j) = x := Function.update_eq_self j x
    have hc : HasDerivAt (fun s : ℝ => f (Function.update x j s)) (fderiv ℝ f x (Pi.single j 1)) (x j) := by
      have := HasFDerivAt.comp_hasDerivAt (x j) (l := f) (l' := fderiv ℝ f x) (by rw [hx]; exact hf) hu
      exact this
    funext i
    exact ((hasDerivAt_pi.mp hc) i).unique (h i j)
  ext1 v
  have hv : v = ∑ j, v j • Pi.single j (1 : ℝ) := by
    ext i
    simp [Finset.sum_apply, Pi.single_apply]
  ext i
  conv_lhs => rw [hv]
  rw [map_sum, Finset.sum_apply]
  simp only [map_smul, key, Pi.smul_apply, smul_eq_mul, LinearMap.coe_toContinuousLinearMap', Matrix.mulVecLin_apply, Matrix.mulVec,
    dotProduct]
  exact Finset.sum_congr rfl fun j _ => mul_comm _ _

/-- Chain rule. -/
theorem IsJacobian.comp {f : Vec ℝ m → Vec ℝ k} {g : Vec ℝ n → Vec ℝ m} {x : Vec ℝ n} {A : Mat ℝ k m} {B : Mat ℝ m n}
    (hf : IsJacobian f (g x) A) (hg : IsJacobian g x B) : IsJacobian (fun x => f (g x)) x (A * B) := by
  unfold IsJacobian at *
  have := hf.comp x hg
  refine this.congr_fderiv ?_
  ext v
  simp [Matrix.mulVec_mulVec]

/-- Every component of the function along every line through the point has the directional derivative given by the matrix. -/
theorem IsJacobian.line {f : Vec ℝ n → Vec ℝ m} {x : Vec ℝ n} {J : Mat ℝ m n} (h : IsJacobian f x J) (i : Fin m) (j : Fin n) :
    HasDerivAt (fun s : ℝ => f (Function.update x j s) i) (J i j) (x j) := by
  have hu : HasDerivAt (fun s : ℝ => Function.update x j s) (Pi.single j 1) (x j) := hasDerivAt_update x j (x j)
  have hx : Function.update x j (x j) = x := Function.update_eq_self j x
  have hc := HasFDerivAt.comp_hasDerivAt (x j) (l := f) (l' := LinearMap.toContinuousLinearMap (Matrix.mulVecLin J)) (by rw [hx]; exact h) hu
  have := (hasDerivAt_pi.mp hc) i
  simpa using this

/-- The Jacobian is unique. -/
theorem IsJacobian.unique {f : Vec ℝ n → Vec ℝ m} {x : Vec ℝ n} {J J' : Mat ℝ m n} (h : IsJacobian f x J) (h' : IsJacobian f x J') :
    J = J' := by
  ext i j
  exact (h.line i j).unique (h'.line i j)

/-- A function of the form `c + M(h) h` with `M` continuous at zero has the Jacobian `M(0)` at zero. -/
theorem isJacobian_of_mulVec {f : Vec ℝ n → Vec ℝ m} {c : Vec ℝ m} {M : Vec ℝ n → Mat ℝ m n}
    (hf : ∀ h, f h = c + (M h).mulVec h) (hM : ∀ i j, ContinuousAt (fun h => M h i j) 0) : IsJacobian f 0 (M 0) := by
  unfold IsJacobian
  rw [hasFDerivAt_iff_isLittleO_nhds_zero, Asymptotics.isLittleO_pi]
  intro i
  have e : (fun h : Vec ℝ n => (f (0 + h) - f 0 - (LinearMap.toContinuousLinearMap (Matrix.mulVecLin (M 0))) h) i)
      = fun h => ∑ j, (M h i j - M 0 i j) * h j := by
    funext h
    rw [zero_add, hf h, hf 0]
    simp [Matrix.mulVec, dotProduct, sub_mul, Finset.sum_sub_distrib]
  rw [e]
  apply Asymptotics.IsLittleO.fun_sum
  intro j _
  have h1 : (fun h : Vec ℝ n => M h i j - M 0 i j) =o[nhds 0] (fun _ => (1 : ℝ)) := by
    rw [Asymptotics.isLittleO_one_iff]
    have := (hM i j).tendsto.sub_const (M 0 i j)
    simpa using this
  have h2 : (fun h : Vec ℝ n => h j) =O[nhds 0] (fun h : Vec ℝ n => ‖h‖) := by
    apply Asymptotics.IsBigO.of_norm_le
    intro h
    simpa using norm_le_pi_norm h j
  have := h1.mul_isBigO h2
  simp only [one_mul] at this
  exact this.of_norm_right

/-- Computes the derivative of an explicit rational expression; leaves the denominators. -/
macro "hasderiv" : tactic => `(tactic|
  repeat' first
    | exact hasDerivAt_const _ _
    | exact hasDerivAt_id' _
    | eapply HasDerivAt.fun_add
    | eapply HasDerivAt.fun_sub
    | eapply HasDerivAt.fun_neg
    | eapply HasDerivAt.fun_div
    | eapply HasDerivAt.fun_inv
    | eapply HasDerivAt.fun_mul
    | eapply HasDerivAt.fun_pow)

end Ubitrack.Spec

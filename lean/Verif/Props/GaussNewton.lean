import Verif.Model.GaussNewton
import Verif.Spec.GaussNewton
import Verif.Spec.Solver
import Verif.Spec.BackwardPropagation
import Verif.Proofs.LeastSquares
import Mathlib.Analysis.Calculus.FDeriv.Mul
import Mathlib.Analysis.Calculus.FDeriv.Pow
import Mathlib.Analysis.Calculus.Deriv.Basic
import Mathlib.Analysis.Calculus.Deriv.Slope
import Mathlib.Analysis.Calculus.Deriv.Add
import Mathlib.Analysis.Calculus.Deriv.Mul
import Mathlib.Analysis.Calculus.Deriv.Comp
import Mathlib.LinearAlgebra.Matrix.DotProduct
import Mathlib.LinearAlgebra.FiniteDimensional.Lemmas
import Mathlib.Tactic.Linarith
import Mathlib.Tactic.FieldSimp
import Mathlib.Tactic.Positivity

/-! # Gauss-Newton optimization and numerical Jacobians -/

namespace Ubitrack.GaussNewton

open Spec
open scoped Matrix

variable {m n : ℕ}

section solve

variable {J : Mat ℝ m n}

theorem gram_injective (hJ : Determined J) (x : Vec ℝ n) (h : (Jᵀ * J) *ᵥ x = 0) : x = 0 := by
  apply hJ
  have : (J *ᵥ x) ⬝ᵥ (J *ᵥ x) = 0 := by
    rw [Matrix.dotProduct_mulVec, ← Matrix.mulVec_transpose, Matrix.mulVec_mulVec, h, zero_dotProduct]
  exact dotProduct_self_eq_zero.mp this

theorem gram_surjective (hJ : Determined J) (v : Vec ℝ n) : ∃ x, (Jᵀ * J) *ᵥ x = v := by
  have hi : Function.Injective (Matrix.mulVecLin (Jᵀ * J)) :=
    (injective_iff_map_eq_zero _).mpr fun x hx => gram_injective hJ x hx
  obtain ⟨x, hx⟩ := (LinearMap.injective_iff_surjective.mp hi) v
  exact ⟨x, hx⟩

theorem systemError_nonneg (rows : List (Vec ℝ n × ℝ)) (x : Vec ℝ n) : 0 ≤ systemError rows x := by
  unfold systemError
  apply List.sum_nonneg
  intro y hy
  obtain ⟨r, -, rfl⟩ := List.mem_map.mp hy
  positivity

theorem systemError_finRange (A : Mat ℝ n n) (b x : Vec ℝ n) :
    systemError ((List.finRange n).map fun i => (A i, b i)) x = ∑ i, ((A *ᵥ x) i - b i) ^ 2 := by
  unfold systemError
  rw [List.map_map, ← List.ofFn_eq_map, List.sum_ofFn]
  rfl

/-- The solver solves square systems that have a solution. -/
theorem solve {gels : List (Vec ℝ n × ℝ) → Option (Vec ℝ n)} (hg : LeastSquaresSolver gels) (A : Mat ℝ n n) (b y x : Vec ℝ n)
    (hy : A *ᵥ y = b) (hx : gels ((List.finRange n).map fun i => (A i, b i)) = some x) : A *ᵥ x = b := by
  have h := hg _ x hx y
  rw [systemError_finRange, systemError_finRange, hy] at h
  simp only [sub_self, ne_eq, OfNat.ofNat_ne_zero, not_false_eq_true, zero_pow, Finset.sum_const_zero] at h
  have h0 : ∑ i, ((A *ᵥ x) i - b i) ^ 2 = 0 := le_antisymm h (Finset.sum_nonneg fun i _ => sq_nonneg _)
  rw [Finset.sum_eq_zero_iff_of_nonneg (fun i _ => sq_nonneg _)] at h0
  funext i
  exact sub_eq_zero.mp (pow_eq_zero_iff two_ne_zero |>.mp (h0 i (Finset.mem_univ i)))

end solve

section step

variable (gels : List (Vec ℝ n × ℝ) → Option (Vec ℝ n)) (problem : Problem m n) (normalize : Vec ℝ n → Vec ℝ n)

/-- One step: the normal equations are solved and the result is normalised. -/
theorem step_spec (hg : LeastSquaresSolver gels) (hs : SucceedsOnFullRank gels) (z : Vec ℝ m) (x e : Vec ℝ _)
    (J : Mat ℝ m n) (hp : problem x = some (e, J)) (hJ : Determined J) :
    ∃ d, step gels problem z normalize x = some (normalize (x + d)) ∧ (Jᵀ * J) *ᵥ d = Jᵀ *ᵥ (z - e) := by
  obtain ⟨y, hy⟩ := gram_surjective hJ (Jᵀ *ᵥ (z - e))
  obtain ⟨d, hd⟩ := hs ((List.finRange n).map fun i => ((Jᵀ * J) i, (Jᵀ *ᵥ (z - e)) i)) (by
    intro v hv
    apply gram_injective hJ
    funext i
    exact hv _ (List.mem_map_of_mem (List.mem_finRange i)))
  refine ⟨d, ?_, solve hg _ _ y d hy hd⟩
  simp only [step, hp, Option.bind_eq_bind, Option.bind_some, hd]

end step

/-- The derivative of the squared error. -/
theorem hasFDerivAt_squaredError (f : Vec ℝ n → Vec ℝ m) (z : Vec ℝ m) (x : Vec ℝ n) (J : Mat ℝ m n) (h : IsJacobian f x J) :
    HasFDerivAt (squaredError f z)
      (LinearMap.toContinuousLinearMap ((-2 : ℝ) • (Matrix.mulVecLin (Matrix.of fun (_ : Fin 1) => Jᵀ *ᵥ (z - f x))).dualMap
        (LinearMap.proj 0))) x := by
  have hi := hasFDerivAt_pi'.mp h
  have h1 := HasFDerivAt.fun_sum (u := Finset.univ) fun i _ => ((hi i).const_sub (z i)).pow 2
  unfold squaredError
  refine h1.congr_fderiv ?_
  ext v
  simp only [ContinuousLinearMap.sum_apply, ContinuousLinearMap.smul_apply, ContinuousLinearMap.neg_apply,
    ContinuousLinearMap.comp_apply, ContinuousLinearMap.proj_apply, LinearMap.coe_toContinuousLinearMap',
    Matrix.mulVecLin_apply, LinearMap.smul_apply, LinearMap.dualMap_apply, LinearMap.proj_apply]
  change _ = (-2 : ℝ) • ((Jᵀ *ᵥ (z - f x)) ⬝ᵥ v)
  rw [dotProduct_comm, Matrix.dotProduct_mulVec, Matrix.vecMul_transpose, dotProduct, Finset.smul_sum]
  refine Finset.sum_congr rfl fun i _ => ?_
  simp
  ring

theorem stationary_iff (f : Vec ℝ n → Vec ℝ m) (z : Vec ℝ m) (x : Vec ℝ n) (J : Mat ℝ m n) (h : IsJacobian f x J) :
    Stationary f z x ↔ Jᵀ *ᵥ (z - f x) = 0 := by
  have hd := hasFDerivAt_squaredError f z x J h
  constructor
  · intro hs
    have e := hs.unique hd
    have : ∀ v, (Jᵀ *ᵥ (z - f x)) ⬝ᵥ v = 0 := by
      intro v
      have := congrArg (fun L : Vec ℝ n →L[ℝ] ℝ => L v) e
      change (0 : ℝ) = (-2 : ℝ) • ((Jᵀ *ᵥ (z - f x)) ⬝ᵥ v) at this
      rw [smul_eq_mul] at this
      linarith
    exact dotProduct_self_eq_zero.mp (this _)
  · intro h0
    refine hd.congr_fderiv ?_
    ext v
    change (-2 : ℝ) • ((Jᵀ *ᵥ (z - f x)) ⬝ᵥ v) = 0
    rw [h0, zero_dotProduct, smul_zero]

section theorems

variable (gels : List (Vec ℝ n × ℝ) → Option (Vec ℝ n)) (hg : LeastSquaresSolver gels) (hs : SucceedsOnFullRank gels)
  (f : Vec ℝ n → Vec ℝ m) (jac : Vec ℝ n → Mat ℝ m n)

include hg hs

/-- **C76.** The optimizer stays exactly at the stationary points of the squared error: when the problem supplies the true
Jacobian and it determines the parameters, an iteration returns its start if and only if the derivative of the error is zero
there. -/
theorem C76_fixed_point (z : Vec ℝ m) (x : Vec ℝ n) (hJ : IsJacobian f x (jac x)) (hd : Determined (jac x)) :
    gaussNewton gels (fun y => some (f y, jac y)) z id 1 x = some x ↔ Stationary f z x := by
  obtain ⟨d, h1, h2⟩ := step_spec gels (fun y => some (f y, jac y)) id hg hs z x _ _ rfl hd
  rw [stationary_iff f z x _ hJ]
  simp only [gaussNewton, h1, Option.bind_eq_bind, Option.bind_some, id, Option.some.injEq]
  constructor
  · intro h
    have : d = 0 := by simpa using h
    rw [← h2, this, Matrix.mulVec_zero]
  · intro h
    rw [h] at h2
    rw [gram_injective hd d h2, add_zero]

/-- **C76.** At any other point the step is a descent direction: moving along it by a small enough amount reduces the
error. -/
theorem C76_descent (z : Vec ℝ m) (x y : Vec ℝ n) (hJ : IsJacobian f x (jac x)) (hd : Determined (jac x))
    (hx : ¬Stationary f z x) (hy : gaussNewton gels (fun y => some (f y, jac y)) z id 1 x = some y) :
    ∃ t > (0 : ℝ), ∀ s : ℝ, 0 < s → s < t → squaredError f z (x + s • (y - x)) < squaredError f z x := by
  obtain ⟨d, h1, h2⟩ := step_spec gels (fun y => some (f y, jac y)) id hg hs z x _ _ rfl hd
  simp only [gaussNewton, h1, Option.bind_eq_bind, Option.bind_some, id, Option.some.injEq] at hy
  subst hy
  rw [add_sub_cancel_left]
  rw [stationary_iff f z x _ hJ] at hx
  have hd0 : d ≠ 0 := by
    rintro rfl
    exact hx (by rw [← h2, Matrix.mulVec_zero])
  have hfd := hasFDerivAt_squaredError f z x _ hJ
  have hl : HasDerivAt (fun s : ℝ => squaredError f z (x + s • d)) ((-2 : ℝ) • (((jac x)ᵀ *ᵥ (z - f x)) ⬝ᵥ d)) 0 := by
    have hline : HasDerivAt (fun s : ℝ => x + s • d) d 0 := by
      simpa using ((hasDerivAt_id (0 : ℝ)).smul_const d).const_add x
    have hx0 : x + (0 : ℝ) • d = x := by simp
    rw [← hx0] at hfd
    have := hfd.comp_hasDerivAt (0 : ℝ) hline
    rw [hx0] at this
    exact this
  have hneg : (-2 : ℝ) • (((jac x)ᵀ *ᵥ (z - f x)) ⬝ᵥ d) < 0 := by
    have hp : 0 < ((jac x)ᵀ *ᵥ (z - f x)) ⬝ᵥ d := by
      rw [← h2, ← Matrix.mulVec_mulVec, dotProduct_comm, Matrix.dotProduct_mulVec, Matrix.vecMul_transpose]
      have hne : jac x *ᵥ d ≠ 0 := fun h => hd0 (hd d h)
      have h0 : 0 ≤ (jac x *ᵥ d) ⬝ᵥ (jac x *ᵥ d) := Finset.sum_nonneg fun i _ => mul_self_nonneg _
      exact lt_of_le_of_ne h0 fun h => hne (dotProduct_self_eq_zero.mp h.symm)
    rw [smul_eq_mul]
    linarith
  have hslope := hasDerivAt_iff_tendsto_slope.mp hl
  have hev := (hslope.eventually_lt_const hneg)
  rw [eventually_nhdsWithin_iff, Metric.eventually_nhds_iff] at hev
  obtain ⟨t, ht, h⟩ := hev
  refine ⟨t, ht, fun s hs0 hst => ?_⟩
  have := h (y := s) (by rw [Real.dist_eq, sub_zero, abs_of_pos hs0]; exact hst) (by simpa using hs0.ne')
  rw [slope_def_field, sub_zero, zero_smul, add_zero] at this
  have := (div_neg_iff.mp this).resolve_left (fun h => absurd h.2 (not_lt.mpr hs0.le))
  linarith [this.1]

/-- A step from any point solves an affine problem. -/
theorem affine_step (A : Mat ℝ m n) (b z : Vec ℝ m) (hA : Determined A) (problem : Problem m n)
    (hp : ∀ x, problem x = some (A *ᵥ x + b, A)) (x : Vec ℝ n) :
    ∃ y, step gels problem z id x = some y ∧ (Aᵀ * A) *ᵥ y = Aᵀ *ᵥ (z - b) := by
  obtain ⟨d, h1, h2⟩ := step_spec gels problem id hg hs z x _ _ (hp x) hA
  refine ⟨_, h1, ?_⟩
  rw [id, Matrix.mulVec_add, h2, ← Matrix.mulVec_mulVec, ← Matrix.mulVec_add]
  congr 1
  abel

omit hg hs in
theorem normal_minimal (A : Mat ℝ m n) (b z : Vec ℝ m) (y : Vec ℝ n) (hy : (Aᵀ * A) *ᵥ y = Aᵀ *ᵥ (z - b)) :
    Minimal (fun x => A *ᵥ x + b) z y := by
  intro v
  have e : Aᵀ *ᵥ (z - (A *ᵥ y + b)) = 0 := by
    rw [show z - (A *ᵥ y + b) = (z - b) - A *ᵥ y by abel, Matrix.mulVec_sub, ← hy, Matrix.mulVec_mulVec, sub_self]
  have ho : (z - (A *ᵥ y + b)) ⬝ᵥ (A *ᵥ (v - y)) = 0 := by
    rw [Matrix.dotProduct_mulVec, ← Matrix.mulVec_transpose, e, zero_dotProduct]
  have : squaredError (fun x => A *ᵥ x + b) z v = squaredError (fun x => A *ᵥ x + b) z y + ∑ i, ((A *ᵥ (v - y)) i) ^ 2 -
      2 * ((z - (A *ᵥ y + b)) ⬝ᵥ (A *ᵥ (v - y))) := by
    unfold squaredError dotProduct
    rw [Finset.mul_sum, ← Finset.sum_add_distrib, ← Finset.sum_sub_distrib]
    refine Finset.sum_congr rfl fun i _ => ?_
    rw [Matrix.mulVec_sub]
    simp only [Pi.sub_apply, Pi.add_apply]
    ring
  rw [this, ho, mul_zero, sub_zero]
  have : 0 ≤ ∑ i, ((A *ᵥ (v - y)) i) ^ 2 := Finset.sum_nonneg fun i _ => sq_nonneg _
  linarith

theorem affine_any (A : Mat ℝ m n) (b z : Vec ℝ m) (hA : Determined A) (problem : Problem m n)
    (hp : ∀ x, problem x = some (A *ᵥ x + b, A)) :
    ∃ y, Minimal (fun x => A *ᵥ x + b) z y ∧ ∀ k x, gaussNewton gels problem z id (k + 1) x = some y := by
  obtain ⟨y, -, hy⟩ := affine_step gels hg hs A b z hA problem hp 0
  refine ⟨y, normal_minimal A b z y hy, fun k => ?_⟩
  have h1 : ∀ x, step gels problem z id x = some y := by
    intro x
    obtain ⟨y', h1, hy'⟩ := affine_step gels hg hs A b z hA problem hp x
    rw [h1]
    congr 1
    rw [← sub_eq_zero]
    apply gram_injective hA
    rw [Matrix.mulVec_sub, hy, hy', sub_self]
  induction k with
  | zero => intro x; simp only [gaussNewton, h1, Option.bind_eq_bind, Option.bind_some]
  | succ k ih =>
    intro x
    rw [gaussNewton, h1]
    exact ih y

/-- **C76.** A linear problem is solved by the first iteration, whatever the start, and further iterations change nothing: the
result minimises the squared error. -/
theorem C76_linear (A : Mat ℝ m n) (b z : Vec ℝ m) (hA : Determined A) :
    ∃ y, Minimal (fun x => A *ᵥ x + b) z y ∧
      ∀ k x, gaussNewton gels (fun x => some (A *ᵥ x + b, A)) z id (k + 1) x = some y :=
  affine_any gels hg hs A b z hA _ fun _ => rfl

omit hg hs

/-- **C76.** Iterations can be split into several calls. -/
theorem C76_iterations (problem : Problem m n) (normalize : Vec ℝ n → Vec ℝ n) (z : Vec ℝ m) (k l : ℕ) (x : Vec ℝ n) :
    gaussNewton gels problem z normalize (k + l) x =
      (gaussNewton gels problem z normalize k x).bind (gaussNewton gels problem z normalize l) := by
  induction k generalizing x with
  | zero => simp [gaussNewton]
  | succ k ih =>
    rw [show k + 1 + l = (k + l) + 1 by omega, gaussNewton, gaussNewton]
    cases h : step gels problem z normalize x with
    | none => rfl
    | some y => exact ih y

/-- **C76.** After at least one iteration the result is normalised. -/
theorem C76_normalized (problem : Problem m n) (normalize : Vec ℝ n → Vec ℝ n) (z : Vec ℝ m) (k : ℕ) (x y : Vec ℝ n)
    (h : gaussNewton gels problem z normalize (k + 1) x = some y) : y ∈ Set.range normalize := by
  induction k generalizing x with
  | zero =>
    simp only [gaussNewton, step, Option.bind_eq_bind, Option.bind_eq_some_iff, Option.some.injEq] at h
    obtain ⟨_, ⟨_, -, _, -, rfl⟩, rfl⟩ := h
    exact ⟨_, rfl⟩
  | succ k ih =>
    rw [gaussNewton, Option.bind_eq_bind, Option.bind_eq_some_iff] at h
    obtain ⟨x', -, h⟩ := h
    exact ih x' h

end theorems

/-! ## The numerical Jacobian -/

theorem discreteLoop_spec (f : Vec ℝ n → Vec ℝ m) (width : ℝ) (hw : width ≠ 0) (input : Vec ℝ n) (result : Vec ℝ m)
    (l : List (Fin n)) : ∀ J : Mat ℝ m n, discreteLoop f width input result l input J =
      some fun r c => if c ∈ l then
        (f (Function.update input c (input c + eps width (input c))) r - result r) / eps width (input c) else J r c := by
  induction l with
  | nil => intro J; rw [discreteLoop]; refine congrArg some ?_; funext r c; simp
  | cons i l ih =>
    intro J
    have he : eps width (input i) ≠ 0 := by
      unfold eps
      split
      · exact mul_ne_zero ‹_› hw
      · exact hw
    simp only [discreteLoop]
    rw [if_neg he, Function.update_idem, Function.update_eq_self]
    refine (ih _).trans (congrArg some ?_)
    funext r c
    by_cases hc : c ∈ l
    · simp [hc]
    · by_cases hci : c = i
      · subst hci; simp [hc]
      · simp [hc, hci]

theorem discreteJacobian_eq (f : Vec ℝ n → Vec ℝ m) (width : ℝ) (hw : width ≠ 0) (input : Vec ℝ n) (J : Mat ℝ m n) :
    discreteJacobian f width input J = some (f input, fun r c =>
      (f (Function.update input c (input c + eps width (input c))) r - f input r) / eps width (input c)) := by
  rw [discreteJacobian, discreteLoop_spec f width hw]
  refine congrArg some (Prod.ext rfl ?_)
  funext r c
  simp

theorem update_eq (x : Vec ℝ n) (c : Fin n) (e : ℝ) : Function.update x c (x c + e) = x + e • Pi.single c 1 := by
  funext i
  by_cases h : i = c
  · subst h; simp
  · simp [h]

/-- **C76.** For functions that are linear (plus a constant) the numerical Jacobian is exact, for every width except zero and
at every point. -/
theorem C76_discrete_linear (A : Mat ℝ m n) (b : Vec ℝ m) (width : ℝ) (hw : width ≠ 0) (x : Vec ℝ n) (J : Mat ℝ m n) :
    discreteJacobian (fun x => A *ᵥ x + b) width x J = some (A *ᵥ x + b, A) := by
  rw [discreteJacobian_eq _ _ hw]
  refine congrArg some (Prod.ext rfl ?_)
  funext r c
  have he : eps width (x c) ≠ 0 := by
    unfold eps
    split
    · exact mul_ne_zero ‹_› hw
    · exact hw
  simp only
  rw [update_eq, Matrix.mulVec_add, Matrix.mulVec_smul, Matrix.mulVec_single_one]
  simp only [Pi.add_apply, Pi.smul_apply, smul_eq_mul, Matrix.col_apply]
  rw [show (A *ᵥ x) r + eps width (x c) * A r c + b r - ((A *ᵥ x) r + b r) = A r c * eps width (x c) by ring,
    mul_div_cancel_right₀ _ he]

/-- **C76.** For every differentiable function the numerical Jacobian tends to the Jacobian when the width tends to zero. -/
theorem C76_discrete_limit (f : Vec ℝ n → Vec ℝ m) (x : Vec ℝ n) (J J0 : Mat ℝ m n) (h : IsJacobian f x J) :
    ∀ ε > 0, ∃ δ > 0, ∀ width, width ≠ 0 → |width| < δ → ∃ D, discreteJacobian f width x J0 = some (f x, D) ∧
      ∀ r c, |D r c - J r c| < ε := by
  intro ε hε
  have hlim : ∀ r c, ∀ᶠ width in nhdsWithin (0 : ℝ) {0}ᶜ,
      |(f (Function.update x c (x c + eps width (x c))) r - f x r) / eps width (x c) - J r c| < ε := by
    intro r c
    have hr := (hasFDerivAt_pi'.mp h) r
    have hline : HasDerivAt (fun s : ℝ => x + s • (Pi.single c 1 : Vec ℝ n)) (Pi.single c 1) 0 := by
      simpa using ((hasDerivAt_id (0 : ℝ)).smul_const (Pi.single c 1 : Vec ℝ n)).const_add x
    have hx0 : x + (0 : ℝ) • (Pi.single c 1 : Vec ℝ n) = x := by simp
    have hd : HasDerivAt (fun s : ℝ => f (x + s • (Pi.single c 1 : Vec ℝ n)) r) (J r c) 0 := by
      rw [← hx0] at hr
      have := hr.comp_hasDerivAt (0 : ℝ) hline
      refine this.congr_deriv ?_
      change (J *ᵥ Pi.single c 1) r = J r c
      rw [Matrix.mulVec_single_one]
      rfl
    have hsl := hasDerivAt_iff_tendsto_slope.mp hd
    have hev : ∀ᶠ s in nhdsWithin (0 : ℝ) {0}ᶜ,
        |(f (x + s • (Pi.single c 1 : Vec ℝ n)) r - f x r) / s - J r c| < ε := by
      have := Metric.tendsto_nhds.mp hsl ε hε
      refine this.mono fun s hs => ?_
      rw [Real.dist_eq, slope_def_field, sub_zero, zero_smul, add_zero] at hs
      exact hs
    -- the distance of the points tends to zero with the width
    have heps : Filter.Tendsto (fun w => eps w (x c)) (nhdsWithin (0 : ℝ) {0}ᶜ) (nhdsWithin (0 : ℝ) {0}ᶜ) := by
      unfold eps
      by_cases hxc : x c = 0
      · simp only [hxc, ne_eq, not_true_eq_false, if_false]
        exact Filter.tendsto_id
      · simp only [ne_eq, hxc, not_false_eq_true, if_true]
        refine tendsto_nhdsWithin_iff.mpr ⟨?_, ?_⟩
        · have : Filter.Tendsto (fun w : ℝ => x c * w) (nhds 0) (nhds (x c * 0)) :=
            (continuous_const.mul continuous_id).tendsto 0
          rw [mul_zero] at this
          exact this.mono_left nhdsWithin_le_nhds
        · exact eventually_nhdsWithin_of_forall fun w hw => mul_ne_zero hxc hw
    refine (heps.eventually hev).mono fun w hw => ?_
    rw [update_eq]
    exact hw
  have hall := Filter.eventually_all.mpr fun r => Filter.eventually_all.mpr fun c => hlim r c
  rw [eventually_nhdsWithin_iff, Metric.eventually_nhds_iff] at hall
  obtain ⟨δ, hδ, hall⟩ := hall
  refine ⟨δ, hδ, fun width hw hlt => ⟨_, discreteJacobian_eq f width hw x J0, fun r c => ?_⟩⟩
  exact hall (y := width) (by rw [Real.dist_eq, sub_zero]; exact hlt) hw r c

/-- **C76.** Gauss-Newton with numerical Jacobians solves linear problems exactly, too. -/
theorem C76_discrete_gauss_newton (gels : List (Vec ℝ n × ℝ) → Option (Vec ℝ n)) (hg : LeastSquaresSolver gels)
    (hs : SucceedsOnFullRank gels) (A : Mat ℝ m n) (b z : Vec ℝ m) (hA : Determined A) (width : ℝ) (hw : width ≠ 0)
    (J0 : Mat ℝ m n) :
    ∃ y, Minimal (fun x => A *ᵥ x + b) z y ∧
      ∀ k x, gaussNewton gels (fun x => discreteJacobian (fun x => A *ᵥ x + b) width x J0) z id (k + 1) x = some y :=
  affine_any gels hg hs A b z hA _ fun x => C76_discrete_linear A b width hw x J0

/-- **C76, refuted.** The optimizer can make the error larger and need not converge: for the measurement zero of
`x³ - 2x + 2` an iteration from `x = 1` raises the squared error from 1 to 4, and however many iterations are made from
`x = 0`, an even number ends where it started. -/
theorem C76_cycle_refuted (gels : List (Vec ℝ 1 × ℝ) → Option (Vec ℝ 1)) (hg : LeastSquaresSolver gels)
    (hs : SucceedsOnFullRank gels) :
    let f : Vec ℝ 1 → Vec ℝ 1 := fun x => ![x 0 ^ 3 - 2 * x 0 + 2]
    let jac : Vec ℝ 1 → Mat ℝ 1 1 := fun x => Matrix.of ![![3 * x 0 ^ 2 - 2]]
    (∀ x, IsJacobian f x (jac x)) ∧
    gaussNewton gels (fun x => some (f x, jac x)) 0 id 1 ![1] = some ![0] ∧
    squaredError f 0 ![1] < squaredError f 0 ![0] ∧
    (∀ k, gaussNewton gels (fun x => some (f x, jac x)) 0 id (2 * k) ![0] = some ![0]) ∧
    ¬Stationary f 0 ![0] := by
  intro f jac
  have hJ : ∀ x, IsJacobian f x (jac x) := by
    intro x
    unfold IsJacobian
    rw [hasFDerivAt_pi']
    intro i
    have hi : i = 0 := Subsingleton.elim _ _
    subst hi
    have h0 : HasFDerivAt (fun y : Vec ℝ 1 => y 0) (ContinuousLinearMap.proj (R := ℝ) (φ := fun _ : Fin 1 => ℝ) 0) x :=
      (ContinuousLinearMap.proj (R := ℝ) (φ := fun _ : Fin 1 => ℝ) 0).hasFDerivAt
    have := ((h0.pow 3).sub (h0.const_mul 2)).add_const 2
    refine this.congr_fderiv ?_
    ext v
    simp [jac, dotProduct]
    ring
  have hdet : ∀ a : ℝ, a ≠ 0 → Determined (Matrix.of ![![a]] : Mat ℝ 1 1) := by
    intro a ha x hx
    have := congrFun hx 0
    simp [Matrix.mulVec, dotProduct] at this
    funext i
    have hi : i = 0 := Subsingleton.elim _ _
    subst hi
    exact this.resolve_left ha
  have hstep : ∀ x d : ℝ, 3 * x ^ 2 - 2 ≠ 0 → (3 * x ^ 2 - 2) * d = -(x ^ 3 - 2 * x + 2) →
      step gels (fun x => some (f x, jac x)) 0 id ![x] = some ![x + d] := by
    intro x d hx hd
    obtain ⟨d', h1, h2⟩ := step_spec gels (fun x => some (f x, jac x)) id hg hs 0 ![x] _ _ rfl (hdet _ hx)
    rw [h1]
    congr 1
    have := congrFun h2 0
    simp [Matrix.mulVec, dotProduct, Matrix.mul_apply, jac, f] at this
    have h3 : (3 * x ^ 2 - 2) * ((3 * x ^ 2 - 2) * d' 0) = (3 * x ^ 2 - 2) * ((3 * x ^ 2 - 2) * d) := by
      rw [hd]
      linarith
    have := mul_left_cancel₀ hx (mul_left_cancel₀ hx h3)
    rw [id]
    funext i
    have hi : i = 0 := Subsingleton.elim _ _
    subst hi
    simp [this]
  have h01 : step gels (fun x => some (f x, jac x)) 0 id ![0] = some ![1] := by
    rw [hstep 0 1 (by norm_num) (by norm_num)]; norm_num
  have h10 : step gels (fun x => some (f x, jac x)) 0 id ![1] = some ![0] := by
    rw [hstep 1 (-1) (by norm_num) (by norm_num)]; simp
  refine ⟨hJ, ?_, ?_, ?_, ?_⟩
  · simp only [gaussNewton, h10, Option.bind_eq_bind, Option.bind_some]
  · simp [squaredError, f]
  · intro k
    induction k with
    | zero => rfl
    | succ k ih =>
      rw [show 2 * (k + 1) = 2 * k + 1 + 1 by ring, gaussNewton, h01]
      change gaussNewton gels _ 0 id (2 * k + 1) ![1] = _
      rw [gaussNewton, h10]
      exact ih
  · rw [stationary_iff f 0 ![0] _ (hJ _)]
    intro h
    have := congrFun h 0
    simp [Matrix.mulVec, dotProduct, jac, f] at this

/-- The solver exists, and a problem as in the theorems: two parameters, three measurements that contradict each other. -/
example : (∃ gels : List (Vec ℝ 2 × ℝ) → Option (Vec ℝ 2), LeastSquaresSolver gels ∧ SucceedsOnFullRank gels) ∧
    ∃ (A : Mat ℝ 3 2) (z : Vec ℝ 3), Determined A ∧ ¬∃ x, A *ᵥ x = z := by
  refine ⟨exists_leastSquaresSolver 2, Matrix.of ![![1, 0], ![0, 1], ![1, 1]], ![0, 0, 1], ?_, ?_⟩
  · intro x hx
    have h0 := congrFun hx 0
    have h1 := congrFun hx 1
    simp [Matrix.mulVec, dotProduct, Fin.sum_univ_two] at h0 h1
    funext i
    fin_cases i
    · exact h0
    · exact h1
  · rintro ⟨x, hx⟩
    have h0 := congrFun hx 0
    have h1 := congrFun hx 1
    have h2 := congrFun hx 2
    simp [Matrix.mulVec, dotProduct, Fin.sum_univ_two] at h0 h1 h2
    linarith

end Ubitrack.GaussNewton

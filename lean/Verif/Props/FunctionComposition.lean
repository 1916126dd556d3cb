import Verif.Proofs.FunctionComposition
import Verif.Props.LieRotation
import Verif.Props.ExpLog
import Mathlib.Analysis.Calculus.FDeriv.Pi
import Verif.Model.MultiCameraPose

/-!
# C52: Jacobians of the function objects; C54: Jacobians of composed functions
-/

namespace Ubitrack.FunctionComposition

open Spec

/-- A differentiable function of two vectors has the derivative made of its partial derivatives. -/
theorem isJacobian₂_of_partials {a b m : ℕ} {f : Vec ℝ a → Vec ℝ b → Vec ℝ m} {x : Vec ℝ a} {y : Vec ℝ b} {J1 : Mat ℝ m a}
    {J2 : Mat ℝ m b} (hd : DifferentiableAt ℝ (fun z : Vec ℝ a × Vec ℝ b => f z.1 z.2) (x, y))
    (h1 : IsJacobian (fun x => f x y) x J1) (h2 : IsJacobian (fun y => f x y) y J2) : IsJacobian₂ f x y J1 J2 := by
  unfold IsJacobian IsJacobian₂ at *
  have e1 := (HasFDerivAt.comp (g := fun z : Vec ℝ a × Vec ℝ b => f z.1 z.2) (f := fun x => (x, y)) x hd.hasFDerivAt
    (hasFDerivAt_prodMk_left (𝕜 := ℝ) x y)).unique h1
  have e2 := (HasFDerivAt.comp (g := fun z : Vec ℝ a × Vec ℝ b => f z.1 z.2) (f := fun y => (x, y)) y hd.hasFDerivAt
    (hasFDerivAt_prodMk_right (𝕜 := ℝ) x y)).unique h2
  refine hd.hasFDerivAt.congr_fderiv ?_
  rw [← e1, ← e2]
  have hz : (fderiv ℝ (fun z : Vec ℝ a × Vec ℝ b => f z.1 z.2) (x, y)) (0, 0) = 0 := map_zero _
  ext v <;> simp [hz]

/-- **C52** Addition: the left-hand side is multiplied with the derivative. -/
theorem C52_addition (k n : ℕ) (x y : Vec ℝ n) : Correct2 k (addition n) x y := by
  refine ⟨1, 1, ?_, fun l => (Matrix.mul_one l).symm, fun l => (Matrix.mul_one l).symm⟩
  unfold IsJacobian₂
  refine (hasFDerivAt_fst.add hasFDerivAt_snd).congr_fderiv ?_
  ext v <;> simp

/-- **C52** Subtraction: the left-hand side is multiplied with the derivative. -/
theorem C52_subtraction (k n : ℕ) (x y : Vec ℝ n) : Correct2 k (subtraction n) x y := by
  refine ⟨1, -1, ?_, fun l => (Matrix.mul_one l).symm, fun l => by simp [subtraction]⟩
  unfold IsJacobian₂
  refine (hasFDerivAt_fst.sub hasFDerivAt_snd).congr_fderiv ?_
  ext v <;> simp [Matrix.neg_mulVec]

/-- **C52** Linear functions: the left-hand side is multiplied with the derivative. -/
theorem C52_linear (k : ℕ) {m n : ℕ} (A : Mat ℝ m n) (x : Vec ℝ n) : Correct1 k (linearTransformation A) x := by
  refine ⟨A, ?_, fun l => rfl⟩
  unfold IsJacobian
  exact (LinearMap.toContinuousLinearMap (Matrix.mulVecLin A)).hasFDerivAt

/-- **C52** Storing an intermediate result: the left-hand side is multiplied with the derivative. -/
theorem C52_store (k n : ℕ) (x : Vec ℝ n) : Correct1 k (storeIntermediate n) x := by
  refine ⟨1, ?_, fun l => (Matrix.mul_one l).symm⟩
  unfold IsJacobian
  refine (hasFDerivAt_id x).congr_fderiv ?_
  ext v
  simp

theorem dehomogenizationJacobian_cast (n : ℕ) (x : Vec ℝ (n + 1)) (i j : Fin n) :
    dehomogenizationJacobian n x i j.castSucc = (1 : Mat ℝ n n) i j * (1 / x (Fin.last n)) := by
  unfold dehomogenizationJacobian
  exact dif_pos j.is_lt

theorem dehomogenizationJacobian_last (n : ℕ) (x : Vec ℝ (n + 1)) (i : Fin n) :
    dehomogenizationJacobian n x i (Fin.last n) = -x i.castSucc * (1 / x (Fin.last n) * (1 / x (Fin.last n))) := by
  unfold dehomogenizationJacobian
  exact dif_neg (lt_irrefl n)

/-- **C52** Dehomogenisation (old interface): the Jacobian is exact wherever the last coordinate is non-zero. -/
theorem C52_dehomogenization (n : ℕ) (x : Vec ℝ (n + 1)) (hx : x (Fin.last n) ≠ 0) :
    IsJacobian (dehomogenization n).evaluate x (dehomogenizationJacobian n x) := by
  apply isJacobian_of_partials
  · rw [differentiableAt_pi]
    intro i
    simp only [dehomogenization]
    fun_prop (disch := exact hx)
  · intro i j
    simp only [dehomogenization]
    induction j using Fin.lastCases with
    | last =>
      have hne : i.castSucc ≠ Fin.last n := (Fin.castSucc_lt_last i).ne
      simp only [Function.update_self, Function.update_of_ne hne, dehomogenizationJacobian_last]
      refine HasDerivAt.congr_deriv (by hasderiv; exact hx) ?_
      field_simp
      ring
    | cast j =>
      have hne : Fin.last n ≠ j.castSucc := (Fin.castSucc_lt_last j).ne'
      simp only [Function.update_of_ne hne, dehomogenizationJacobian_cast]
      by_cases hij : i = j
      · subst hij
        simp only [Function.update_self, Matrix.one_apply_eq]
        exact (hasDerivAt_id (x i.castSucc)).mul_const _
      · have hne' : i.castSucc ≠ j.castSucc := fun h => hij (Fin.castSucc_injective n h)
        simp only [Function.update_of_ne hne', Matrix.one_apply_ne hij, zero_mul]
        exact hasDerivAt_const _ _

/-- **C52** Dehomogenisation (new interface): the left-hand side is multiplied with the derivative. -/
theorem C52_dehomogenization_new (k n : ℕ) (x : Vec ℝ (n + 1)) (hx : x (Fin.last n) ≠ 0) : Correct1 k (dehomogenization n) x := by
  refine ⟨_, C52_dehomogenization n x hx, fun l => ?_⟩
  ext r c
  rw [Matrix.mul_apply]
  induction c using Fin.lastCases with
  | last =>
    simp only [dehomogenizationJacobian_last]
    have e : (dehomogenization n).multiplyJacobian1 l x r (Fin.last n)
        = -(∑ i : Fin n, l r i * x i.castSucc) * (1 / x (Fin.last n) * (1 / x (Fin.last n))) := dif_neg (lt_irrefl n)
    rw [e, ← Finset.sum_neg_distrib, Finset.sum_mul]
    exact Finset.sum_congr rfl fun i _ => by ring
  | cast j =>
    simp only [dehomogenizationJacobian_cast]
    have e : (dehomogenization n).multiplyJacobian1 l x r j.castSucc = 1 / x (Fin.last n) * l r j := dif_pos j.is_lt
    rw [e, Finset.sum_eq_single j]
    · simp [mul_comm]
    · intro i _ hij
      rw [Matrix.one_apply_ne hij]
      ring
    · simp

/-- **C52** Multiplication with the camera intrinsics (old interface): exact Jacobian. -/
theorem C52_camera (p : Vec ℝ 2) (x : Vec ℝ 5) :
    IsJacobian (fun x => cameraIntrinsicsMultiplication.evaluate x p) x (cameraIntrinsicsMultiplicationJacobian p) := by
  apply isJacobian_of_partials
  · rw [differentiableAt_pi]
    intro i
    fin_cases i <;> simp [cameraIntrinsicsMultiplication] <;> fun_prop
  · intro i j
    fin_cases i <;> fin_cases j <;> simp [cameraIntrinsicsMultiplication, cameraIntrinsicsMultiplicationJacobian] <;>
    · refine HasDerivAt.congr_deriv (by hasderiv) ?_
      ring

/-- **C52** Multiplication with the camera intrinsics (new interface): the left-hand side is multiplied with the derivatives. -/
theorem C52_camera_new (k : ℕ) (x : Vec ℝ 5) (p : Vec ℝ 2) : Correct2 k cameraIntrinsicsMultiplication x p := by
  refine ⟨cameraIntrinsicsMultiplicationJacobian p, !![-x 0, -x 1; 0, -x 3], isJacobian₂_of_partials ?_ (C52_camera p x) ?_, ?_, ?_⟩
  · rw [differentiableAt_pi]
    intro i
    fin_cases i <;> simp [cameraIntrinsicsMultiplication] <;> fun_prop
  · apply isJacobian_of_partials
    · rw [differentiableAt_pi]
      intro i
      fin_cases i <;> simp [cameraIntrinsicsMultiplication] <;> fun_prop
    · intro i j
      fin_cases i <;> fin_cases j <;> simp [cameraIntrinsicsMultiplication] <;>
      · refine HasDerivAt.congr_deriv (by hasderiv) ?_
        ring
  · intro l
    ext r c
    fin_cases c <;>
      simp [cameraIntrinsicsMultiplication, cameraIntrinsicsMultiplicationJacobian, Matrix.mul_apply, Fin.sum_univ_two] <;> ring
  · intro l
    ext r c
    fin_cases c <;> simp [cameraIntrinsicsMultiplication, Matrix.mul_apply, Fin.sum_univ_two] <;> ring

theorem sumsq_nonneg {n : ℕ} (x : Vec ℝ n) : 0 ≤ ∑ i, x i * x i := Finset.sum_nonneg fun i _ => mul_self_nonneg (x i)

theorem norm2_ne_zero {n : ℕ} {x : Vec ℝ n} (hx : x ≠ 0) : norm2 x ≠ 0 := by
  intro h
  rw [norm2, Real.sqrt_eq_zero (sumsq_nonneg x), Finset.sum_eq_zero_iff_of_nonneg (fun i _ => mul_self_nonneg (x i))] at h
  exact hx (funext fun i => mul_self_eq_zero.mp (h i (Finset.mem_univ i)))

theorem norm2_mul_self {n : ℕ} (x : Vec ℝ n) : norm2 x * norm2 x = ∑ i, x i * x i := Real.mul_self_sqrt (sumsq_nonneg x)

theorem hasDeriv_norm2 {n : ℕ} (x : Vec ℝ n) (hx : x ≠ 0) (j : Fin n) :
    HasDerivAt (fun s : ℝ => norm2 (Function.update x j s)) (x j / norm2 x) (x j) := by
  have hs : HasDerivAt (fun s : ℝ => ∑ i, Function.update x j s i * Function.update x j s i) (2 * x j) (x j) := by
    have : HasDerivAt (fun s : ℝ => ∑ i, Function.update x j s i * Function.update x j s i) (∑ i, if i = j then 2 * x j else 0) (x j) := by
      apply HasDerivAt.fun_sum
      intro i _
      by_cases hij : i = j
      · subst hij
        simp only [Function.update_self, ↓reduceIte]
        refine ((hasDerivAt_id (x i)).mul (hasDerivAt_id (x i))).congr_deriv ?_
        simp
        ring
      · simp only [Function.update_of_ne hij, hij, ↓reduceIte]
        exact hasDerivAt_const _ _
    simpa using this
  have h0 := norm2_ne_zero hx
  have hq : ∑ i, x i * x i ≠ 0 := by
    rw [← norm2_mul_self]
    exact mul_ne_zero h0 h0
  have := hs.sqrt (by simpa using hq)
  refine this.congr_deriv ?_
  simp only [Function.update_eq_self]
  change 2 * x j / (2 * norm2 x) = _
  field_simp

theorem differentiable_norm2 {n : ℕ} (x : Vec ℝ n) (hx : x ≠ 0) : DifferentiableAt ℝ norm2 x := by
  have h0 := norm2_ne_zero hx
  have hq : ∑ i, x i * x i ≠ 0 := by
    rw [← norm2_mul_self]
    exact mul_ne_zero h0 h0
  have : DifferentiableAt ℝ (fun x : Vec ℝ n => ∑ i, x i * x i) x := by
    apply DifferentiableAt.fun_sum
    intro i _
    fun_prop
  exact this.sqrt hq

/-- **C52** The norm of a vector: the (single) row of the left-hand side is multiplied with the derivative. -/
theorem C52_norm (n : ℕ) (junk : ℕ → ℕ → ℝ) (x : Vec ℝ n) (hx : x ≠ 0) : Correct1 1 (vectorNorm n junk) x := by
  refine ⟨Matrix.of fun _ j => x j / norm2 x, ?_, ?_⟩
  · apply isJacobian_of_partials
    · rw [differentiableAt_pi]
      intro i
      have := differentiable_norm2 x hx
      fin_cases i
      simpa [vectorNorm] using this
    · intro i j
      have := hasDeriv_norm2 x hx j
      fin_cases i
      simpa [vectorNorm] using this
  · intro l
    ext r c
    fin_cases r
    simp [vectorNorm, Matrix.mul_apply]
    ring

/-- **C52 (refuted)** The norm of a vector inside of a function with two or more results: the other rows are not computed. -/
theorem C52_norm_refuted : ∃ (junk : ℕ → ℕ → ℝ) (x : Vec ℝ 1), x ≠ 0 ∧ ¬ Correct1 2 (vectorNorm 1 junk) x := by
  refine ⟨fun _ _ => 1, ![1], ?_, ?_⟩
  · intro h
    have := congrFun h 0
    simp at this
  · rintro ⟨J, _, h⟩
    have := congrFun (congrFun (h 0) 1) 0
    simp [vectorNorm] at this

/-- **C52** Normalisation of a vector of any dimension: exact Jacobian. -/
theorem C52_normalize (n : ℕ) (x : Vec ℝ n) (hx : x ≠ 0) : IsJacobian vectorNormalize x (vectorNormalizeJacobian x) := by
  have h0 := norm2_ne_zero hx
  have hd := differentiable_norm2 x hx
  apply isJacobian_of_partials
  · rw [differentiableAt_pi]
    intro i
    simp only [vectorNormalize, one_div]
    exact (differentiableAt_apply i x).mul (hd.inv h0)
  · intro i j
    simp only [vectorNormalize, vectorNormalizeJacobian, Matrix.of_apply]
    have hn := hasDeriv_norm2 x hx j
    have hinv := hn.fun_inv (by simpa using h0)
    simp only [Function.update_eq_self] at hinv
    by_cases hij : i = j
    · subst hij
      simp only [Function.update_self, ↓reduceIte, one_div]
      refine ((hasDerivAt_id (x i)).mul hinv).congr_deriv ?_
      simp only [id, Function.update_eq_self]
      field_simp
      ring
    · simp only [Function.update_of_ne hij, hij, ↓reduceIte, one_div]
      have := hinv.const_mul (x i)
      refine this.congr_deriv ?_
      split_ifs <;> (field_simp; try ring)

/-- **C52** Exponential map rotation (new interface): the left-hand side is multiplied with the derivatives with respect to
the rotation and the point. -/
theorem C52_lie_new (k : ℕ) (y v : Vec ℝ 3) (hy : Real.sqrt (y 0 ^ 2 + y 1 ^ 2 + y 2 ^ 2) ≥ 1e-6) :
    Correct2 k lieRotationFun y v := by
  refine ⟨_, _, isJacobian₂_of_partials ?_ (RotationFunction.C52_lie_jacobian v y hy) ?_, fun l => rfl, fun l => rfl⟩
  · have e : y 0 ^ 2 + y 1 ^ 2 + y 2 ^ 2 = RotationFunction.nsq y := by unfold RotationFunction.nsq; ring
    rw [e] at hy
    have hn : RotationFunction.nsq y ≠ 0 := by
      intro h
      rw [h] at hy
      norm_num at hy
    have hdr : DifferentiableAt ℝ (fun z : Vec ℝ 3 × Vec ℝ 3 => RotationFunction.rod z.2 z.1) (y, v) := by
      obtain ⟨hA, hB, hC⟩ := RotationFunction.coeff_differentiable y hn
      have hf : DifferentiableAt ℝ (fun z : Vec ℝ 3 × Vec ℝ 3 => z.1) (y, v) := differentiableAt_fst
      have hA' : DifferentiableAt ℝ (fun z : Vec ℝ 3 × Vec ℝ 3 => RotationFunction.fA z.1) (y, v) := 
        DifferentiableAt.comp (g := RotationFunction.fA) (f := fun z : Vec ℝ 3 × Vec ℝ 3 => z.1) (y, v) hA hf
      have hB' : DifferentiableAt ℝ (fun z : Vec ℝ 3 × Vec ℝ 3 => RotationFunction.fB z.1) (y, v) := 
        DifferentiableAt.comp (g := RotationFunction.fB) (f := fun z : Vec ℝ 3 × Vec ℝ 3 => z.1) (y, v) hB hf
      have hC' : DifferentiableAt ℝ (fun z : Vec ℝ 3 × Vec ℝ 3 => RotationFunction.fC z.1) (y, v) := 
        DifferentiableAt.comp (g := RotationFunction.fC) (f := fun z : Vec ℝ 3 × Vec ℝ 3 => z.1) (y, v) hC hf
      rw [differentiableAt_pi]
      intro i
      fin_cases i <;> simp [RotationFunction.rod] <;> fun_prop
    refine hdr.congr_of_eventuallyEq ?_
    have hc : ContinuousAt (fun z : Vec ℝ 3 × Vec ℝ 3 => Real.sqrt (RotationFunction.nsq z.1)) (y, v) := by
      unfold RotationFunction.nsq
      fun_prop
    have : ∀ᶠ z in nhds (y, v), Real.sqrt (RotationFunction.nsq z.1) > 1e-12 :=
      hc.eventually (lt_mem_nhds (lt_of_lt_of_le (by norm_num) hy))
    exact this.mono fun z hz => RotationFunction.lieRotation_eq_rod z.2 z.1 hz
  · have hu := C05_exp_unit y
    have e : (fun v => lieRotationFun.evaluate y v) = fun v => (Quat.fromLogarithm y).toMatrix.mulVec v := by
      funext v
      simp only [lieRotationFun, RotationFunction.lieRotation]
      generalize Quat.fromLogarithm y = q at hu
      unfold UnitQ at hu
      ext i
      fin_cases i <;>
        simp [Quat.rotate, Quat.toMatrix, Matrix.mulVec, dotProduct, Fin.sum_univ_three] <;> grind
    rw [e]
    unfold IsJacobian
    exact (LinearMap.toContinuousLinearMap (Matrix.mulVecLin (Quat.fromLogarithm y).toMatrix)).hasFDerivAt

/-- **C54** Evaluating a composed expression gives the composition of the functions, whatever results were stored before;
evaluating with Jacobian gives the same as evaluating and computing the Jacobian separately. -/
theorem C54_evaluate {N m : ℕ} (n : Node ℝ N m) (p : Vec ℝ N) (j : Mat ℝ m N) :
    n.evaluate p = denote n p ∧ n.evaluateWithJacobian p j = (n.evaluate p, n.jacobian p j) :=
  ⟨evaluateOuter_value p n, rfl⟩

open Classical in
/-- **C54** The Jacobian of a composed expression is the derivative of the composition, provided that no parameter occurs twice;
columns of parameters which do not occur keep their previous contents. -/
theorem C54_jacobian {N m : ℕ} (n : Node ℝ N m) (p : Vec ℝ N) (hu : UsedOnce n) (hc : AllCorrect m n p) :
    ∃ J, IsJacobian (denote n) p J ∧ ∀ (j : Mat ℝ m N) r c, n.jacobian p j r c = if Uses n c then J r c else j r c := by
  have hs := sameShape_evaluateOuter p n
  obtain ⟨J, h1, _, h3⟩ := multiplyJacobian_spec (k := m) p (n.evaluateOuter p).1 (hs.usedOnce.mp hu) ((hs.allCorrect p).mp hc)
    (fresh_evaluateOuter p n)
  refine ⟨J, hs.denote_eq ▸ h1, fun j r c => ?_⟩
  have := h3 1 j r c
  rw [Matrix.one_mul, ← hs.uses_eq] at this
  exact this

/-- **C54** Hence the Jacobian is exact, if the destination is zero before, or if all parameters occur. -/
theorem C54_jacobian_zeroed {N m : ℕ} (n : Node ℝ N m) (p : Vec ℝ N) (hu : UsedOnce n) (hc : AllCorrect m n p) (j : Mat ℝ m N)
    (hj : j = 0 ∨ ∀ c, Uses n c) : IsJacobian (denote n) p (n.jacobian p j) := by
  have hs := sameShape_evaluateOuter p n
  obtain ⟨J, h1, h2, h3⟩ := multiplyJacobian_spec (k := m) p (n.evaluateOuter p).1 (hs.usedOnce.mp hu) ((hs.allCorrect p).mp hc)
    (fresh_evaluateOuter p n)
  have e : n.jacobian p j = J := by
    ext r c
    have := h3 1 j r c
    rw [Matrix.one_mul] at this
    refine Eq.trans this ?_
    by_cases hcu : Uses (n.evaluateOuter p).1 c
    · simp [hcu]
    · rcases hj with rfl | hj
      · simp [hcu, h2 c hcu]
      · exact absurd (hs.uses_eq ▸ hj c) hcu
  rw [e, hs.denote_eq]
  exact h1

/-- **C54 (refuted)** An expression in which a parameter occurs twice: the contributions are not added. -/
theorem C54_shared_refuted :
    ∃ (n : Node ℝ 1 1) (p : Vec ℝ 1), AllCorrect 1 n p ∧ (∀ c, Uses n c) ∧ ¬ IsJacobian (denote n) p (n.jacobian p 0) := by
  let x : Node ℝ 1 1 := .param 0 1 (by norm_num)
  refine ⟨.bind2 (addition 1) x x 0, 0, ⟨trivial, trivial, C52_addition _ _ _ _⟩, ?_, ?_⟩
  · intro c
    exact Or.inl ⟨by simp, by omega⟩
  · intro h
    have h1 := h.line 0 0
    have h2 : HasDerivAt (fun s : ℝ => denote (.bind2 (addition 1) x x 0) (Function.update (0 : Vec ℝ 1) 0 s) 0) 2 0 := by
      have e : (fun s : ℝ => denote (.bind2 (addition 1) x x 0) (Function.update (0 : Vec ℝ 1) 0 s) 0) = fun s => s + s := by
        funext s
        simp [denote, addition, x]
      rw [e]
      refine ((hasDerivAt_id (0 : ℝ)).add (hasDerivAt_id (0 : ℝ))).congr_deriv (by norm_num)
    have := h1.unique h2
    simp [Node.jacobian, Node.evaluateParameters, Node.evaluateOuter, Node.multiplyJacobian, Node.evaluateInternal, addition, x,
      Node.wantsJacobian] at this
    have e : (1 : Mat ℝ 1 1) 0 0 = 2 := this
    norm_num at e

/-- **C54** The objective of the multi-camera pose optimisation: value and Jacobian, for all previous contents of the matrix. -/
theorem C54_pose_objective (camI camR : Mat ℝ 3 3) (camT q : Vec ℝ 3) (p : Vec ℝ 6) (j : Mat ℝ 2 6)
    (hr : Real.sqrt (p 3 ^ 2 + p 4 ^ 2 + p 5 ^ 2) ≥ 1e-6)
    (hz : camI.mulVec (camT + camR.mulVec (![p 0, p 1, p 2] + RotationFunction.expRotate q ![p 3, p 4, p 5])) 2 ≠ 0) :
    let f : Vec ℝ 6 → Vec ℝ 2 := fun p =>
      let h := camI.mulVec (camT + camR.mulVec (![p 0, p 1, p 2] + RotationFunction.lieRotation q ![p 3, p 4, p 5]))
      ![h 0 / h 2, h 1 / h 2]
    (poseObjective camI camR camT q).evaluate p = f p ∧ IsJacobian f p ((poseObjective camI camR camT q).jacobian p j) := by
  intro f
  have e0 : ∀ p : Vec ℝ 6, denote (Node.param 0 3 (by norm_num) : Node ℝ 6 3) p = ![p 0, p 1, p 2] := by
    intro p; ext i; fin_cases i <;> simp [denote]
  have e3 : ∀ p : Vec ℝ 6, denote (Node.param 3 3 (by norm_num) : Node ℝ 6 3) p = ![p 3, p 4, p 5] := by
    intro p; ext i; fin_cases i <;> simp [denote]
  have ed : denote (poseObjective camI camR camT q) = f := by
    funext p
    have : denote (poseObjective camI camR camT q) p = (dehomogenization 2).evaluate
        (camI.mulVec (camT + camR.mulVec (denote (Node.param 0 3 (by norm_num) : Node ℝ 6 3) p
          + RotationFunction.lieRotation q (denote (Node.param 3 3 (by norm_num) : Node ℝ 6 3) p)))) := rfl
    rw [this, e0, e3]
    ext i
    fin_cases i <;> simp [dehomogenization, f] <;> rfl
  have hv : RotationFunction.lieRotation q ![p 3, p 4, p 5] = RotationFunction.expRotate q ![p 3, p 4, p 5] := by
    apply RotationFunction.C52_lie_value
    right
    exact lt_of_lt_of_le (by norm_num) hr
  constructor
  · rw [(C54_evaluate _ p j).1, ed]
  · rw [← ed]
    apply C54_jacobian_zeroed
    · refine ⟨trivial, ⟨trivial, ⟨trivial, trivial, ?_⟩, ?_⟩, ?_⟩
      · rintro c ⟨_, h⟩; exact h
      · rintro c ⟨⟨_, h1⟩, h2 | h2⟩
        · exact absurd h2.1 (by omega)
        · exact h2
      · rintro c ⟨h, _⟩; exact h
    · refine ⟨⟨⟨trivial, ⟨⟨trivial, ⟨trivial, trivial, ?_⟩, C52_addition _ _ _ _⟩, C52_linear _ _ _⟩, C52_addition _ _ _ _⟩, C52_linear _ _ _⟩, ?_⟩
      · apply C52_lie_new
        rw [e3]
        exact hr
      · apply C52_dehomogenization_new
        have : denote (Node.bind1 (linearTransformation camI)
          (.bind2 (addition 3) (.fixed camT)
          (.bind1 (linearTransformation camR)
          (.bind2 (addition 3) (.param 0 3 (by norm_num))
            (.bind2 lieRotationFun (.param 3 3 (by norm_num)) (.fixed q) 0) 0) 0) 0) 0 : Node ℝ 6 3) p =
          camI.mulVec (camT + camR.mulVec (denote (Node.param 0 3 (by norm_num) : Node ℝ 6 3) p
          + RotationFunction.lieRotation q (denote (Node.param 3 3 (by norm_num) : Node ℝ 6 3) p))) := rfl
        rw [this, e0, e3, hv]
        exact hz
    · right
      intro c
      by_cases h : c.val < 3
      · exact Or.inr (Or.inl ⟨by omega, by omega⟩)
      · exact Or.inr (Or.inr (Or.inl ⟨by omega, by omega⟩))

/-- Non-vacuity: a pose and a point meeting the hypotheses. -/
example : ∃ (camI camR : Mat ℝ 3 3) (camT q : Vec ℝ 3) (p : Vec ℝ 6), Real.sqrt (p 3 ^ 2 + p 4 ^ 2 + p 5 ^ 2) ≥ 1e-6 ∧
    camI.mulVec (camT + camR.mulVec (![p 0, p 1, p 2] + RotationFunction.expRotate q ![p 3, p 4, p 5])) 2 ≠ 0 := by
  refine ⟨1, 1, 0, ![1, 0, 0], ![0, 0, 1, 1, 0, 0], ?_, ?_⟩
  · simp
    norm_num
  · simp [RotationFunction.expRotate, cross_apply, Matrix.vecHead, Matrix.vecTail]

end Ubitrack.FunctionComposition

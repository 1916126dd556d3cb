import Verif.Model.PoseRefinement
import Verif.Model.ToolTip
import Verif.Proofs.Projection
import Verif.Props.RotationFunction
import Verif.Props.LevenbergMarquardt
import Verif.Props.AbsoluteOrientation
import Verif.Props.ToolTip

/-!
# C58: refinement of a pose from 3D-3D correspondences, and the Jacobian of the tool tip distances
-/

namespace Ubitrack.PoseRefinement

open Spec RotationFunction

/-! ### The refinement does not make a pose worse -/

/-- **C58** The refined pose has a sum of squared distances that is not larger than that of the given pose, whatever
the termination criterion, solver and step parameters. -/
theorem C58_not_worse (pointsA pointsB : List (Vec ℝ 3)) (pose : Pose ℝ) (hp : UnitQ pose.rotation)
    (hlen : pointsB.length = pointsA.length) (terminate : ℕ → ℝ → ℝ → Bool) (solver : LM.Solver) (stepSize stepFactor : ℝ)
    (lapack : LM.Lapack 7) (fuel : ℕ) (refined : Pose ℝ)
    (h : refine pointsA pose pointsB hlen terminate solver stepSize stepFactor lapack fuel = some refined) :
    alignError pointsA pointsB refined.apply ≤ alignError pointsA pointsB pose.apply := by
  unfold refine at h
  dsimp only at h
  split at h
  swap
  · simp at h
  rename_i x r hlm
  obtain ⟨h1, h2⟩ := LM.C23_result _ (by intro d i; simp [LM.weights]) _ _ _ _ hlm
  have hcost : ∀ (c : LM.Call 7 (pointsB.length * 3)) (y : Vec ℝ 7), c.weight = none →
      c.measurement = (fun r => pointsA.get ((finProdFinEquiv.symm r).1.cast hlen) (finProdFinEquiv.symm r).2) →
      (∀ y, (c.problem y).1 = evaluate pointsB y) →
      c.residual y = alignError pointsA pointsB (poseOf y).apply := by
    intro c y hw hm hpr
    simp only [LM.Call.residual, LM.residual, LM.Call.predict, hw, hm, hpr, LM.weights, one_mul]
    rw [← finProdFinEquiv.sum_comp, Fintype.sum_prod_type]
    simp only [Equiv.symm_apply_apply, evaluate, Fin.sum_univ_three]
    have hv : ∀ v : Vec ℝ 3, ![v 0, v 1, v 2] = v := by
      intro v; ext i; fin_cases i <;> rfl
    simp only [hv]
    unfold alignError
    rw [← Fin.sum_univ_fun_getElem]
    refine Fintype.sum_equiv (finCongr (by simp [hlen])) _ _ fun i => ?_
    simp [lenSq]
  rw [h1, hcost _ _ rfl rfl (fun _ => rfl), hcost _ _ rfl rfl (fun _ => rfl)] at h2
  simp only [Option.some.injEq] at h
  rw [h] at h2
  have e : poseOf pose.toVector = pose := by
    have hq : (Quat.abs pose.rotation) = 1 := by
      have : pose.rotation.normSq = 1 := by
        unfold UnitQ at hp
        rw [Quat.normSq]; linear_combination hp
      rw [Quat.abs, this, Real.sqrt_one]
    rcases pose with ⟨⟨a, b, c, d⟩, t⟩
    simp only [poseOf, Pose.toVector, Quat.toVector, Quat.normalize]
    simp [hq]
    ext i; fin_cases i <;> rfl
  rwa [e] at h2

/-- Non-vacuity: with a criterion that stops at once, the refinement returns a pose. -/
example : ∃ refined, refine [![1, 0, 0], ![0, 1, 0], ![0, 0, 1]] ⟨⟨0, 0, 0, 1⟩, 0⟩ [![1, 0, 0], ![0, 2, 0], ![0, 0, 1]] rfl
    (fun _ _ _ => true) .cholesky 1 10 (fun _ _ _ => some 0) 1 = some refined := by
  unfold refine LM.levenbergMarquardt LM.loop LM.step LM.evaluateStep
  dsimp only
  split_ifs <;> exact ⟨_, rfl⟩

/-! ### The Jacobian -/

/-- The point moved by the pose of the parameters, without normalising square root. -/
noncomputable def moved (pt : Vec ℝ 3) (x : Vec ℝ 7) : Vec ℝ 3 :=
  fun k => sandwich ![x 3, x 4, x 5, x 6] pt k / (x 3 * x 3 + x 4 * x 4 + x 5 * x 5 + x 6 * x 6) + ![x 0, x 1, x 2] k

theorem apply_eq_moved (pt : Vec ℝ 3) (x : Vec ℝ 7) (hx : x 3 ^ 2 + x 4 ^ 2 + x 5 ^ 2 + x 6 ^ 2 ≠ 0) :
    (poseOf x).apply pt = moved pt x := by
  have hn : 0 ≤ x 6 * x 6 + x 3 * x 3 + x 4 * x 4 + x 5 * x 5 := by nlinarith [sq_nonneg (x 6), sq_nonneg (x 3), sq_nonneg (x 4), sq_nonneg (x 5)]
  have hn' : x 6 * x 6 + x 3 * x 3 + x 4 * x 4 + x 5 * x 5 ≠ 0 := by
    intro h; exact hx (by linear_combination h)
  have hs : Real.sqrt (x 6 * x 6 + x 3 * x 3 + x 4 * x 4 + x 5 * x 5) ≠ 0 := by
    rw [Ne, Real.sqrt_eq_zero hn]; exact hn'
  have hsq := Real.sq_sqrt hn
  ext k
  fin_cases k <;>
    simp [poseOf, Pose.apply, moved, Quat.rotate, Quat.normalize, Quat.abs, Quat.normSq, sandwich, Quat.mul, Quat.conj,
      Quat.fromVector] <;>
  · set s := Real.sqrt (x 6 * x 6 + x 3 * x 3 + x 4 * x 4 + x 5 * x 5)
    have e : x 3 * x 3 + x 4 * x 4 + x 5 * x 5 + x 6 * x 6 = s ^ 2 := by rw [hsq]; ring
    rw [e]
    field_simp
    rw [hsq]
    ring

/-- The derivative of the moved point at a unit quaternion. -/
def movedJacobian (pt : Vec ℝ 3) (x : Vec ℝ 7) : Mat ℝ 3 7 :=
  let J := quaternionRotationJacobian pt ![x 3, x 4, x 5, x 6]
  let s := sandwich ![x 3, x 4, x 5, x 6] pt
  !![1, 0, 0, J 0 0 - 2 * s 0 * x 3, J 0 1 - 2 * s 0 * x 4, J 0 2 - 2 * s 0 * x 5, J 0 3 - 2 * s 0 * x 6;
     0, 1, 0, J 1 0 - 2 * s 1 * x 3, J 1 1 - 2 * s 1 * x 4, J 1 2 - 2 * s 1 * x 5, J 1 3 - 2 * s 1 * x 6;
     0, 0, 1, J 2 0 - 2 * s 2 * x 3, J 2 1 - 2 * s 2 * x 4, J 2 2 - 2 * s 2 * x 5, J 2 3 - 2 * s 2 * x 6]

theorem isJacobian_moved (pt : Vec ℝ 3) (x : Vec ℝ 7) (hx : x 3 ^ 2 + x 4 ^ 2 + x 5 ^ 2 + x 6 ^ 2 = 1) :
    IsJacobian (moved pt) x (movedJacobian pt x) := by
  have hx' : x 3 * x 3 + x 4 * x 4 + x 5 * x 5 + x 6 * x 6 = 1 := by linear_combination hx
  apply isJacobian_of_partials
  · rw [differentiableAt_pi]
    intro i
    have : x 3 * x 3 + x 4 * x 4 + x 5 * x 5 + x 6 * x 6 ≠ 0 := by rw [hx']; exact one_ne_zero
    fin_cases i <;> simp [moved, sandwich, Quat.mul, Quat.conj, Quat.fromVector] <;> fun_prop (disch := assumption)
  · intro i j
    have hne : x 3 * x 3 + x 4 * x 4 + x 5 * x 5 + x 6 * x 6 ≠ 0 := by rw [hx']; exact one_ne_zero
    fin_cases j
    all_goals
      fin_cases i
    all_goals
      simp [moved, sandwich, Quat.mul, Quat.conj, Quat.fromVector, movedJacobian, quaternionRotationJacobian, Function.update]
    all_goals
      refine HasDerivAt.congr_deriv (by hasderiv; try exact hne) ?_
    all_goals
      try rw [hx']
    all_goals ring

/-- `evaluate` is differentiable at every unit quaternion; this is its derivative. -/
theorem isJacobian_evaluate (points : List (Vec ℝ 3)) (x : Vec ℝ 7) (hx : x 3 ^ 2 + x 4 ^ 2 + x 5 ^ 2 + x 6 ^ 2 = 1) :
    IsJacobian (evaluate points) x
      (Matrix.of fun r => movedJacobian (points.get (finProdFinEquiv.symm r).1) x (finProdFinEquiv.symm r).2) := by
  have h := fun i => isJacobian_moved (points.get i) x hx
  unfold IsJacobian at *
  rw [hasFDerivAt_pi']
  intro r
  have h1 := (hasFDerivAt_pi'.mp (h (finProdFinEquiv.symm r).1)) (finProdFinEquiv.symm r).2
  refine (h1.congr_of_eventuallyEq ?_).congr_fderiv ?_
  · have hc : ContinuousAt (fun y : Vec ℝ 7 => y 3 ^ 2 + y 4 ^ 2 + y 5 ^ 2 + y 6 ^ 2) x := by fun_prop
    have hev := hc.eventually_ne (y := 0) (by rw [hx]; exact one_ne_zero)
    filter_upwards [hev] with y hy
    have hv : ∀ v : Vec ℝ 3, ![v 0, v 1, v 2] = v := by
      intro v; ext i; fin_cases i <;> rfl
    simp only [evaluate, hv]
    exact congrFun (apply_eq_moved _ y hy) _
  · ext v
    rfl

/-- **C58 (partial)** At unit quaternions and in every direction that keeps the length of the quaternion, the rows for
the first two coordinates of every point are the derivative of what `evaluate` computes. The row of the third
coordinate is off by `4 z (qy ey - qz ez)`. -/
theorem C58_jacobian_partial (points : List (Vec ℝ 3)) (x : Vec ℝ 7) (hx : x 3 ^ 2 + x 4 ^ 2 + x 5 ^ 2 + x 6 ^ 2 = 1) :
    ∃ J, IsJacobian (evaluate points) x J ∧
      ∀ e : Vec ℝ 7, x 3 * e 3 + x 4 * e 4 + x 5 * e 5 + x 6 * e 6 = 0 → ∀ i : Fin points.length,
        J.mulVec e (finProdFinEquiv (i, 0)) = (jacobian points x).mulVec e (finProdFinEquiv (i, 0)) ∧
        J.mulVec e (finProdFinEquiv (i, 1)) = (jacobian points x).mulVec e (finProdFinEquiv (i, 1)) ∧
        J.mulVec e (finProdFinEquiv (i, 2)) = (jacobian points x).mulVec e (finProdFinEquiv (i, 2)) -
          4 * (points.get i 2 * (x 4 * e 4 - x 5 * e 5)) := by
  refine ⟨_, isJacobian_evaluate points x hx, fun e he i => ?_⟩
  have hs : Real.sqrt (x 3 * x 3 + x 4 * x 4 + x 5 * x 5 + x 6 * x 6) = 1 := by
    rw [← Real.sqrt_one]; congr 1; linear_combination hx
  simp only [jacobian, hs, div_one, Matrix.mulVec, dotProduct, Fin.sum_univ_seven, Matrix.of_apply, Equiv.symm_apply_apply]
  generalize points.get i = v
  refine ⟨?_, ?_, ?_⟩ <;>
    simp [movedJacobian, quaternionRotationJacobian, pointRows]
  · linear_combination (-2 * sandwich ![x 3, x 4, x 5, x 6] v 0) * he
  · linear_combination (-2 * sandwich ![x 3, x 4, x 5, x 6] v 1) * he
  · linear_combination (-2 * sandwich ![x 3, x 4, x 5, x 6] v 2) * he

/-- **C58 (refuted)** The Jacobian is not the derivative of `evaluate` in the directions that keep the length of the
quaternion: the row of the third coordinate is wrong. -/
theorem C58_jacobian_refuted :
    ∃ (points : List (Vec ℝ 3)) (x : Vec ℝ 7) (J : Mat ℝ (points.length * 3) 7) (e : Vec ℝ 7),
      x 3 ^ 2 + x 4 ^ 2 + x 5 ^ 2 + x 6 ^ 2 = 1 ∧ IsJacobian (evaluate points) x J ∧
      x 3 * e 3 + x 4 * e 4 + x 5 * e 5 + x 6 * e 6 = 0 ∧ J.mulVec e ≠ (jacobian points x).mulVec e := by
  obtain ⟨J, hJ, h⟩ := C58_jacobian_partial [![0, 0, 1]] ![0, 0, 0, 0, 3/5, 4/5, 0] (by simp; norm_num)
  refine ⟨_, _, J, ![0, 0, 0, 0, 4/5, -3/5, 0], ?_, hJ, ?_, fun hh => ?_⟩
  · simp; norm_num
  · simp; norm_num
  · have h2 := (h ![0, 0, 0, 0, 4/5, -3/5, 0] (by simp; norm_num) 0).2.2
    rw [hh] at h2
    simp at h2
    linarith

end Ubitrack.PoseRefinement

namespace Ubitrack.ToolTip

open Spec

/-- The three components of the difference between tip and moved offset, as the code expands them. -/
def diffs (p : Pose ℝ) (x : Vec ℝ 6) : Vec ℝ 3 :=
  let q := p.rotation
  let t := p.translation
  ![(q.y*q.y*2 + q.z*q.z*2 - 1)*x 3 + (q.w*q.z*2 - q.x*q.y*2)*x 4 - (q.w*q.y*2 + q.x*q.z*2)*x 5 - t 0 + x 0,
    (q.z*q.z*2 + q.x*q.x*2 - 1)*x 4 - (q.w*q.z*2 + q.x*q.y*2)*x 3 + (q.w*q.x*2 - q.y*q.z*2)*x 5 - t 1 + x 1,
    (q.y*q.y*2 + q.x*q.x*2 - 1)*x 5 + (q.w*q.y*2 - q.x*q.z*2)*x 3 - (q.w*q.x*2 + q.y*q.z*2)*x 4 - t 2 + x 2]

theorem evaluate_eq (p : Pose ℝ) (hp : UnitQ p.rotation) (x : Vec ℝ 6) :
    Quat.norm3 (![x 0, x 1, x 2] - p.apply ![x 3, x 4, x 5]) =
      Real.sqrt (diffs p x 0 * diffs p x 0 + diffs p x 1 * diffs p x 1 + diffs p x 2 * diffs p x 2) := by
  have e : ![x 0, x 1, x 2] - p.apply ![x 3, x 4, x 5] = diffs p x := by
    unfold UnitQ at hp
    ext k
    rw [Pi.sub_apply, Pose.apply, Pi.add_apply]
    fin_cases k <;> simp [Quat.rotate, diffs]
    · linear_combination -2 * x 3 * hp
    · linear_combination -2 * x 4 * hp
    · linear_combination -2 * x 5 * hp
  rw [e]
  rfl

/-- The unit vector of the difference, times the derivative of the difference. -/
noncomputable def trueRow (p : Pose ℝ) (x : Vec ℝ 6) : Vec ℝ 6 :=
  let q := p.rotation
  let d := diffs p x
  let s := Real.sqrt (d 0 * d 0 + d 1 * d 1 + d 2 * d 2)
  ![d 0 / s, d 1 / s, d 2 / s,
    (d 0 * (q.y*q.y*2 + q.z*q.z*2 - 1) - d 1 * (q.w*q.z*2 + q.x*q.y*2) + d 2 * (q.w*q.y*2 - q.x*q.z*2)) / s,
    (d 0 * (q.w*q.z*2 - q.x*q.y*2) + d 1 * (q.z*q.z*2 + q.x*q.x*2 - 1) - d 2 * (q.w*q.x*2 + q.y*q.z*2)) / s,
    (- (d 0 * (q.w*q.y*2 + q.x*q.z*2)) + d 1 * (q.w*q.x*2 - q.y*q.z*2) + d 2 * (q.y*q.y*2 + q.x*q.x*2 - 1)) / s]

theorem isJacobian_distance (p : Pose ℝ) (hp : UnitQ p.rotation) (x : Vec ℝ 6)
    (hx : Quat.norm3 (![x 0, x 1, x 2] - p.apply ![x 3, x 4, x 5]) ≠ 0) :
    IsJacobian (fun x : Vec ℝ 6 => (fun _ => Quat.norm3 (![x 0, x 1, x 2] - p.apply ![x 3, x 4, x 5]) : Vec ℝ 1)) x
      (Matrix.of fun _ => trueRow p x) := by
  rw [evaluate_eq p hp] at hx
  have hx' : diffs p x 0 * diffs p x 0 + diffs p x 1 * diffs p x 1 + diffs p x 2 * diffs p x 2 ≠ 0 := by
    intro h
    rw [h, Real.sqrt_zero] at hx
    exact hx rfl
  have e : (fun x : Vec ℝ 6 => (fun _ => Quat.norm3 (![x 0, x 1, x 2] - p.apply ![x 3, x 4, x 5]) : Vec ℝ 1)) =
      fun x _ => Real.sqrt (diffs p x 0 * diffs p x 0 + diffs p x 1 * diffs p x 1 + diffs p x 2 * diffs p x 2) := by
    funext y _
    exact evaluate_eq p hp y
  rw [e]
  apply isJacobian_of_partials
  · rw [differentiableAt_pi]
    intro _
    refine DifferentiableAt.sqrt ?_ hx'
    simp only [diffs, Matrix.cons_val]
    fun_prop
  · intro i j
    have hd : ∃ g' : Vec ℝ 3, (∀ k, HasDerivAt (fun s => diffs p (Function.update x j s) k) (g' k) (x j)) ∧
        trueRow p x j = (diffs p x 0 * g' 0 + diffs p x 1 * g' 1 + diffs p x 2 * g' 2) /
          Real.sqrt (diffs p x 0 * diffs p x 0 + diffs p x 1 * diffs p x 1 + diffs p x 2 * diffs p x 2) := by
      let q := p.rotation
      let D : Fin 6 → Vec ℝ 3 :=
        ![![1, 0, 0], ![0, 1, 0], ![0, 0, 1],
          ![q.y*q.y*2 + q.z*q.z*2 - 1, -(q.w*q.z*2 + q.x*q.y*2), q.w*q.y*2 - q.x*q.z*2],
          ![q.w*q.z*2 - q.x*q.y*2, q.z*q.z*2 + q.x*q.x*2 - 1, -(q.w*q.x*2 + q.y*q.z*2)],
          ![-(q.w*q.y*2 + q.x*q.z*2), q.w*q.x*2 - q.y*q.z*2, q.y*q.y*2 + q.x*q.x*2 - 1]]
      refine ⟨D j, fun k => ?_, ?_⟩
      · fin_cases j <;> fin_cases k <;> simp [diffs, D, Function.update] <;>
        · refine HasDerivAt.congr_deriv (by hasderiv) ?_
          simp [q]
      · fin_cases j <;> simp [trueRow, D, q] <;> ring
    obtain ⟨g', h1, h2⟩ := hd
    have h0 : HasDerivAt (fun s => diffs p (Function.update x j s) 0 * diffs p (Function.update x j s) 0 +
        diffs p (Function.update x j s) 1 * diffs p (Function.update x j s) 1 +
        diffs p (Function.update x j s) 2 * diffs p (Function.update x j s) 2)
        (2 * (diffs p x 0 * g' 0 + diffs p x 1 * g' 1 + diffs p x 2 * g' 2)) (x j) := by
      have := (((h1 0).mul (h1 0)).add ((h1 1).mul (h1 1))).add ((h1 2).mul (h1 2))
      simp only [Function.update_eq_self] at this
      refine HasDerivAt.congr_deriv this ?_
      ring
    have h3 := h0.sqrt (by simp only [Function.update_eq_self]; exact hx')
    simp only [Function.update_eq_self] at h3
    refine h3.congr_deriv ?_
    rw [Matrix.of_apply, h2]
    rw [mul_div_mul_left _ _ two_ne_zero]

/-- **C58** Where the code produces numbers for all poses, they are the derivative of the distances with respect to tip
and offset. -/
theorem C58_tip_jacobian (poses : List (Pose ℝ)) (hp : UnitPoses poses) (x : Vec ℝ 6) (rows : Fin poses.length → Vec ℝ 6)
    (h : ∀ i, jacobianRow (poses.get i) x = some (rows i)) : IsJacobian (evaluate poses) x (Matrix.of rows) := by
  unfold IsJacobian
  rw [hasFDerivAt_pi']
  intro i
  have hu : UnitQ (poses.get i).rotation := hp _ (List.get_mem _ _)
  have hi := h i
  have key : Quat.norm3 (![x 0, x 1, x 2] - (poses.get i).apply ![x 3, x 4, x 5]) ≠ 0 ∧ rows i = trueRow (poses.get i) x := by
    rw [evaluate_eq _ hu]
    have hd : jacobianRow (poses.get i) x =
        let d := diffs (poses.get i) x
        let q := (poses.get i).rotation
        let s := 1 / Real.sqrt (|d 0| * |d 0| + |d 1| * |d 1| + |d 2| * |d 2|)
        if d 0 = 0 ∨ d 1 = 0 ∨ d 2 = 0 then none else some
          ![|d 0| * s * (d 0 / |d 0|), |d 1| * s * (d 1 / |d 1|), |d 2| * s * (d 2 / |d 2|),
            s*((q.y*q.y*2 + q.z*q.z*2 - 1) * |d 0| * (d 0 / |d 0|)*2 - |d 1| * (q.w*q.z*2 + q.x*q.y*2)*(d 1 / |d 1|)*2 +
              |d 2| * (q.w*q.y*2 - q.x*q.z*2)*(d 2 / |d 2|)*2)*(1/2),
            s*((q.w*q.z*2 - q.x*q.y*2) * |d 0| * (d 0 / |d 0|)*2 + |d 1| * (q.z*q.z*2 + q.x*q.x*2 - 1)*(d 1 / |d 1|)*2 -
              |d 2| * (q.w*q.x*2 + q.y*q.z*2)*(d 2 / |d 2|)*2)*(1/2),
            s*((q.w*q.y*2 + q.x*q.z*2) * |d 0| * (d 0 / |d 0|)*(-2) + |d 1| * (q.w*q.x*2 - q.y*q.z*2)*(d 1 / |d 1|)*2 +
              |d 2| * (q.y*q.y*2 + q.x*q.x*2 - 1)*(d 2 / |d 2|)*2)*(1/2)] := rfl
    rw [hd] at hi
    simp only at hi
    split_ifs at hi with hz
    push Not at hz
    simp only [abs_mul_abs_self, Option.some.injEq] at hi
    obtain ⟨h0, h1, h2⟩ := hz
    have hs : Real.sqrt (diffs (poses.get i) x 0 * diffs (poses.get i) x 0 + diffs (poses.get i) x 1 * diffs (poses.get i) x 1 +
        diffs (poses.get i) x 2 * diffs (poses.get i) x 2) ≠ 0 := by
      rw [Real.sqrt_ne_zero']
      have := mul_self_pos.mpr h0
      have := mul_self_pos.mpr h1
      have := mul_self_pos.mpr h2
      positivity
    refine ⟨hs, ?_⟩
    rw [← hi]
    have a0 := abs_ne_zero.mpr h0
    have a1 := abs_ne_zero.mpr h1
    have a2 := abs_ne_zero.mpr h2
    unfold trueRow
    dsimp only
    generalize diffs (poses.get i) x = d at *
    generalize (poses.get i).rotation = q
    generalize Real.sqrt (d 0 * d 0 + d 1 * d 1 + d 2 * d 2) = s at *
    have c0 : |d 0| * (d 0 / |d 0|) = d 0 := mul_div_cancel₀ _ a0
    have c1 : |d 1| * (d 1 / |d 1|) = d 1 := mul_div_cancel₀ _ a1
    have c2 : |d 2| * (d 2 / |d 2|) = d 2 := mul_div_cancel₀ _ a2
    generalize |d 0| = e0 at *
    generalize |d 1| = e1 at *
    generalize |d 2| = e2 at *
    ext j
    fin_cases j <;> simp <;> field_simp
    all_goals try ring
  have h1 := (hasFDerivAt_pi'.mp (isJacobian_distance (poses.get i) hu x key.1)) 0
  refine h1.congr_fderiv ?_
  ext v
  simp [Matrix.mulVec, key.2]

/-- **C58 (refuted)** At a positive distance the derivative always exists, but the code divides zero by zero as soon as
one coordinate of the difference is zero. -/
theorem C58_tip_jacobian_refuted :
    ∃ (p : Pose ℝ) (x : Vec ℝ 6) (J : Mat ℝ 1 6), UnitQ p.rotation ∧ 0 < evaluate [p] x 0 ∧ IsJacobian (evaluate [p]) x J ∧
      jacobianRow p x = none := by
  have hq : UnitQ (⟨0, 0, 0, 1⟩ : Quat ℝ) := by simp [UnitQ]
  have hv : Quat.norm3 (![(![1, 0, 0, 0, 0, 0] : Vec ℝ 6) 0, (![1, 0, 0, 0, 0, 0] : Vec ℝ 6) 1, (![1, 0, 0, 0, 0, 0] : Vec ℝ 6) 2] -
      (⟨⟨0, 0, 0, 1⟩, 0⟩ : Pose ℝ).apply ![(![1, 0, 0, 0, 0, 0] : Vec ℝ 6) 3, (![1, 0, 0, 0, 0, 0] : Vec ℝ 6) 4,
        (![1, 0, 0, 0, 0, 0] : Vec ℝ 6) 5]) = 1 := by
    simp [Quat.norm3, Pose.apply, Quat.rotate]
  refine ⟨⟨⟨0, 0, 0, 1⟩, 0⟩, ![1, 0, 0, 0, 0, 0], Matrix.of fun _ => trueRow ⟨⟨0, 0, 0, 1⟩, 0⟩ ![1, 0, 0, 0, 0, 0], hq, ?_, ?_, ?_⟩
  rotate_left
  · have := isJacobian_distance ⟨⟨0, 0, 0, 1⟩, 0⟩ hq ![1, 0, 0, 0, 0, 0] (by rw [hv]; exact one_ne_zero)
    have e : (fun x : Vec ℝ 6 => (fun _ => Quat.norm3 (![x 0, x 1, x 2] -
        (⟨⟨0, 0, 0, 1⟩, 0⟩ : Pose ℝ).apply ![x 3, x 4, x 5]) : Vec ℝ 1)) = (evaluate [⟨⟨0, 0, 0, 1⟩, 0⟩] : Vec ℝ 6 → Vec ℝ 1) := by
      funext x i
      fin_cases i
      rfl
    rw [e] at this
    exact this
  · simp [jacobianRow]
  · have : evaluate [⟨⟨0, 0, 0, 1⟩, 0⟩] ![1, 0, 0, 0, 0, 0] 0 = 1 := hv
    rw [this]
    exact one_pos

/-- Non-vacuity: a pose and parameters for which the code produces numbers. -/
example : ∃ row, jacobianRow ⟨⟨0, 0, 0, 1⟩, 0⟩ ![1, 2, 3, 0, 0, 1] = some row := by
  simp [jacobianRow]
  norm_num

end Ubitrack.ToolTip

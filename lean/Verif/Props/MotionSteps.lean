import Verif.Props.MotionModel
import Verif.Props.VelocitySteps

/-! # C43: predicting the orientation in steps -/

namespace Ubitrack.Tracking

open Spec Quat

private theorem orientation_step (dt : ℝ) (np : ℕ) (x : ℕ → ℝ) :
    quatAt (poseTimeUpdate dt np 2 id x) (3 * np) = (quatAt x (3 * np)).mul (integrate (vecAt x (3 * np + 4)) dt) := by
  rw [quatAt_poseTimeUpdate dt np 2 (by norm_num)]
  simp [turned]

private theorem orientation_steps (np : ℕ) (l : List ℝ) : ∀ x : ℕ → ℝ,
    quatAt (l.foldl (fun x dt => poseTimeUpdate dt np 2 id x) x) (3 * np) =
      l.foldl (fun q t => q.mul (integrate (vecAt x (3 * np + 4)) t)) (quatAt x (3 * np)) := by
  induction l with
  | nil => intro x; rfl
  | cons t l ih =>
    intro x
    rw [List.foldl_cons, ih, vecAt_angular, orientation_step, List.foldl_cons]

/-- **C43** With a constant angular velocity, predicting the orientation in any number of steps, forwards and backwards, is
predicting it once over the sum of the times, up to a distance of the quaternions of 5e-13 for each step and for the sum. -/
theorem C43_orientation_steps (np : ℕ) (x : ℕ → ℝ) (hx : UnitQ (quatAt x (3 * np))) (l : List ℝ) :
    distSq (quatAt (l.foldl (fun x dt => poseTimeUpdate dt np 2 id x) x) (3 * np))
      (quatAt (poseTimeUpdate l.sum np 2 id x) (3 * np)) ≤ ((l.length + 1) * 5e-13) ^ 2 := by
  rw [orientation_steps, orientation_step]
  exact RotationVelocity.C77_steps _ _ hx l

/-- A state with one position, an orientation that is not the identity and an angular velocity. -/
example : UnitQ (quatAt (fun i => if i = 3 then 3/5 else if i = 6 then 4/5 else if i = 7 then 2 else 0) (3 * 1)) := by
  norm_num [UnitQ, quatAt]

end Ubitrack.Tracking

import Verif.Spec.BundleRun
import Verif.Model.MultiCameraPose
import Mathlib.Algebra.BigOperators.Fin

/-!
# Specification: an object seen by several cameras
-/

namespace Ubitrack.Spec

/-- `nc` cameras and an object of `np` points: what each camera has observed of each point, with a weight, which is zero if there is no
observation. A camera pose maps world to camera coordinates. -/
structure Scene (nc np : ℕ) where
  point : Fin np → Vec ℝ 3
  observed : Fin nc → Fin np → Vec ℝ 2
  weight : Fin nc → Fin np → ℝ
  camera : Fin nc → Pose ℝ
  intrinsics : Fin nc → Mat ℝ 3 3

namespace Scene

variable {nc np : ℕ}

/-- The scene as the arguments of the functions. -/
def input (s : Scene nc np) : MultiCameraPose.Input where
  points3d := List.ofFn s.point
  points2d := List.ofFn fun c => List.ofFn (s.observed c)
  points2dWeights := List.ofFn fun c => List.ofFn (s.weight c)
  camPoses := List.ofFn s.camera
  camMatrices := List.ofFn s.intrinsics

/-- The number of points observed by a camera. -/
noncomputable def seen (s : Scene nc np) (c : Fin nc) : ℕ := by
  classical exact (Finset.univ.filter fun p => s.weight c p ≠ 0).card

/-- Where a camera sees the point `q` of an object with the given pose in the world. -/
noncomputable def image (s : Scene nc np) (c : Fin nc) (object : Pose ℝ) (q : Vec ℝ 3) : Vec ℝ 2 :=
  let h := (s.intrinsics c).mulVec (cameraCoordinates (s.camera c) (cameraCoordinates object q))
  ![h 0 / h 2, h 1 / h 2]

/-- The sum of the squared distances between the observations and the images of the points. -/
noncomputable def error (s : Scene nc np) (object : Pose ℝ) : ℝ := by
  classical exact ∑ c, ∑ p, if s.weight c p ≠ 0 then distSq2 (s.observed c p) (s.image c object (s.point p)) else 0

/-- Every observation is what the camera sees of the object with the given pose. -/
def Exact (s : Scene nc np) (object : Pose ℝ) : Prop :=
  ∀ c p, s.weight c p ≠ 0 → s.observed c p = s.image c object (s.point p)

/-- Every camera has enough observations and, unless there is an initial pose, one of them has four. -/
def Enough (s : Scene nc np) (minimum : ℕ) (initial : Bool) : Prop :=
  (∀ c, minimum ≤ s.seen c) ∧ (initial = true ∨ ∃ c, 4 ≤ s.seen c)

/-- Two scenes with the same object and cameras, and the same observations. The weights may be different, but not zero. -/
def SameObservations (s t : Scene nc np) : Prop :=
  s.point = t.point ∧ s.camera = t.camera ∧ s.intrinsics = t.intrinsics ∧
    ∀ c p, (s.weight c p ≠ 0 ↔ t.weight c p ≠ 0) ∧ (s.weight c p ≠ 0 → s.observed c p = t.observed c p)

end Scene

/-- The part of the input that belongs to the points from `start` on, `size` of them. -/
def slice (inp : MultiCameraPose.Input) (start size : ℕ) : MultiCameraPose.Input where
  points3d := (inp.points3d.drop start).take size
  points2d := inp.points2d.map fun l => (l.drop start).take size
  points2dWeights := inp.points2dWeights.map fun l => (l.drop start).take size
  camPoses := inp.camPoses
  camMatrices := inp.camMatrices

end Ubitrack.Spec

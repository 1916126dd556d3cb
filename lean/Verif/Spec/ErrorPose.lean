import Verif.Model.Pose
import Mathlib.Analysis.Calculus.Deriv.Basic

/-!
# Specification: the error of a pose

The convention documented in ErrorPose.h l.52-60: the true pose is `x' = q e_r x e_r* q* + t + e_t` where
`e_r = (e_rx, e_ry, e_rz, 1)` is a small rotation, and the six-vector of the error is `(e_t, e_r)`.
-/

namespace Ubitrack.Spec

/-- The pose `p` with the error `e`. -/
def perturb (p : Pose ℝ) (e : Vec ℝ 6) : Pose ℝ :=
  ⟨p.rotation.mul ⟨e 3, e 4, e 5, 1⟩, ![p.translation 0 + e 0, p.translation 1 + e 1, p.translation 2 + e 2]⟩

/-- The error of the pose `p'`, seen as a disturbed version of `p`. -/
def errorOf (p p' : Pose ℝ) : Vec ℝ 6 :=
  let r := p.rotation.conj.mul p'.rotation
  ![p'.translation 0 - p.translation 0, p'.translation 1 - p.translation 1, p'.translation 2 - p.translation 2,
    r.x, r.y, r.z]

/-- `J` is the derivative at 0 of the error of `op p` with respect to the error of `p`. -/
def IsErrorJacobian (op : Pose ℝ → Pose ℝ) (p : Pose ℝ) (J : Mat ℝ 6 6) : Prop :=
  ∀ (e : Vec ℝ 6) (i : Fin 6),
    HasDerivAt (fun s : ℝ => errorOf (op p) (op (perturb p (s • e))) i) (J.mulVec e i) 0

/-- `J₁`, `J₂` are the derivatives at 0 of the error of `op a b` with respect to the errors of `a` and `b`. -/
def IsErrorJacobian₂ (op : Pose ℝ → Pose ℝ → Pose ℝ) (a b : Pose ℝ) (J₁ J₂ : Mat ℝ 6 6) : Prop :=
  ∀ (e f : Vec ℝ 6) (i : Fin 6),
    HasDerivAt (fun s : ℝ => errorOf (op a b) (op (perturb a (s • e)) (perturb b (s • f))) i)
      (J₁.mulVec e i + J₂.mulVec f i) 0

end Ubitrack.Spec

import Verif.Model.Quaternion

/-!
# Model of `utMath/Pose.h`, `utMath/Pose.cpp` and the pose constructors of `utMath/Matrix.h`
-/

namespace Ubitrack

/-- src/utMath/Vector.h l.325-332: `linearInterpolate` of two vectors. -/
def Vec.linearInterpolate {K : Type*} [CommRing K] {n : ℕ} (x y : Vec K n) (t : K) : Vec K n :=
  fun i => (1 - t) * x i + t * y i

/-- src/utMath/Pose.h l.56-99: a rotation and a translation. -/
@[ext] structure Pose (K : Type*) where
  rotation : Quat K
  translation : Vec K 3

namespace Pose
section Alg
variable {K : Type*} [CommRing K]

/-- src/utMath/Pose.h l.84-87: the default constructor. -/
def one : Pose K := ⟨Quat.one, ![0, 0, 0]⟩

/-- src/utMath/Pose.cpp l.40-44: `operator~`. -/
def inv (p : Pose K) : Pose K :=
  let rinv := p.rotation.conj
  ⟨rinv, -(rinv.rotate p.translation)⟩

/-- src/utMath/Pose.cpp l.46-52: `operator*( Pose )`. -/
def mul (p q : Pose K) : Pose K :=
  ⟨p.rotation.mul q.rotation, p.rotation.rotate q.translation + p.translation⟩

/-- src/utMath/Pose.cpp l.54-57: `operator*( Vector )`. -/
def apply (p : Pose K) (x : Vec K 3) : Vec K 3 := p.rotation.rotate x + p.translation

/-- src/utMath/Pose.h l.113-120: `scalePose` (mutates the translation). -/
def scale (p : Pose K) (f : K) : Pose K :=
  ⟨p.rotation, ![p.translation 0 * f, p.translation 1 * f, p.translation 2 * f]⟩

/-- src/utMath/Pose.h l.140-148: `toVector`, order tx, ty, tz, qx, qy, qz, qw. -/
def toVector (p : Pose K) : Vec K 7 :=
  let r := p.rotation.toVector
  ![p.translation 0, p.translation 1, p.translation 2, r 0, r 1, r 2, r 3]

/-- src/utMath/Pose.h l.154-156: `fromVector`. -/
def fromVector (v : Vec K 7) : Pose K :=
  ⟨Quat.fromVector ![v 3, v 4, v 5, v 6], ![v 0, v 1, v 2]⟩

/-- src/utMath/Matrix.h l.154-174: the 4x4 homogeneous matrix of a pose. -/
def toMatrix4 (p : Pose K) : Mat K 4 4 :=
  let r := p.rotation.toMatrix
  !![r 0 0, r 0 1, r 0 2, p.translation 0;
     r 1 0, r 1 1, r 1 2, p.translation 1;
     r 2 0, r 2 1, r 2 2, p.translation 2;
     0, 0, 0, 1]

/-- src/utMath/Matrix.h l.154-174 with `M = 3`: the 3x4 matrix of a pose. -/
def toMatrix34 (p : Pose K) : Mat K 3 4 :=
  let r := p.rotation.toMatrix
  !![r 0 0, r 0 1, r 0 2, p.translation 0;
     r 1 0, r 1 1, r 1 2, p.translation 1;
     r 2 0, r 2 1, r 2 2, p.translation 2]

end Alg

/-- src/utMath/Pose.cpp l.59-64: `operator==`. -/
def beq {K : Type*} [DecidableEq K] (p q : Pose K) : Bool :=
  if (p.rotation.x = q.rotation.x ∧ p.rotation.y = q.rotation.y ∧ p.rotation.z = q.rotation.z ∧
      p.rotation.w = q.rotation.w) ∧ (∀ i, p.translation i = q.translation i) then true else false

noncomputable section

/-- src/utMath/Pose.cpp l.31-38: construct from a 4x4 matrix; reads the upper-left 3x3 block and
the first three entries of column 3. -/
def ofMatrix4 (mat : Mat ℝ 4 4) : Pose ℝ :=
  ⟨Quat.ofMatrix !![mat 0 0, mat 0 1, mat 0 2; mat 1 0, mat 1 1, mat 1 2;
      mat 2 0, mat 2 1, mat 2 2],
   ![mat 0 3, mat 1 3, mat 2 3]⟩

/-- src/utMath/Pose.cpp l.79-85: `linearInterpolate`. -/
def linearInterpolate (x y : Pose ℝ) (t : ℝ) : Pose ℝ :=
  ⟨Quat.slerp x.rotation y.rotation t, Vec.linearInterpolate x.translation y.translation t⟩

/-- src/utMath/Pose.cpp l.97-107: list version. It indexes `y` with the size of `x`; reading past
the end of `y` is undefined behaviour (`none`). -/
def linearInterpolateList : List (Pose ℝ) → List (Pose ℝ) → ℝ → Option (List (Pose ℝ))
  | [], _, _ => some []
  | _ :: _, [], _ => none
  | x :: xs, y :: ys, t => (linearInterpolateList xs ys t).map (linearInterpolate x y t :: ·)

end
end Pose
end Ubitrack

import Verif.Model.Pose
import Verif.Model.Camera
import Verif.Model.RotationFunction
import Verif.Model.FunctionComposition
import Verif.Model.Geometry

/-!
# Projection of many points: the objective functions of pose estimation

src/utAlgorithm/Function/MultiplePointProjection.h, MultiplePointProjectionError.h, MultipleCameraProjection.h,
MultipleCameraProjectionError.h, MultipleCameraProjectionErrorART.h, SinglePointMultiProjection.h.

The loops write blocks of two rows of a vector or matrix supplied by the caller; they are modelled as folds over the
measurement numbers with the buffer as state. Reading back the three columns just written (`prod( subrange( J, .. ), rotJ )`)
is modelled by naming the block. The indices of a visibility list are assumed to be in range, as the code does.
-/

namespace Ubitrack

namespace ProjectionFunction

open RotationFunction FunctionComposition

/-- `subrange( v, r0, r0 + a ) = w` (Boost uBLAS). -/
def setRange {K : Type*} {m a : ℕ} (v : Vec K m) (r0 : ℕ) (w : Vec K a) : Vec K m := fun r =>
  if h : r0 ≤ r.val ∧ r.val < r0 + a then w ⟨r.val - r0, by omega⟩ else v r

/-- `subrange( J, r0, r0 + a, c0, c0 + b ) = B` (Boost uBLAS). -/
def setBlock {K : Type*} {m n a b : ℕ} (J : Mat K m n) (r0 c0 : ℕ) (B : Mat K a b) : Mat K m n := fun r c =>
  if h : (r0 ≤ r.val ∧ r.val < r0 + a) ∧ c0 ≤ c.val ∧ c.val < c0 + b then B ⟨r.val - r0, by omega⟩ ⟨c.val - c0, by omega⟩
  else J r c

section Alg

variable {K : Type*} [Field K] {n : ℕ}

/-- The translation part of the input, `subrange( input, 0, 3 )`. -/
def inputT {k : ℕ} (input : Vec K (3 + k)) : Vec K 3 := fun i => input (Fin.castAdd k i)

/-- The rotation part of the input, `subrange( input, 3, 3 + k )`. -/
def inputR {k : ℕ} (input : Vec K (3 + k)) : Vec K k := fun i => input (Fin.natAdd 3 i)

/-- `MultiplePointProjection::evaluate`, MultiplePointProjection.h l.83-99. -/
def multiplePointProjection (m_p3D : Fin n → Vec K 3) (m_cam : Mat K 3 3) (result : Vec K (2 * n)) (input : Vec K (3 + 4)) :
    Vec K (2 * n) :=
  let rot := (Quat.fromVector (inputR input)).toMatrix
  (List.finRange n).foldl (fun result (i : Fin n) =>
    let rotated := rot.mulVec (m_p3D i) + inputT input
    let projected := m_cam.mulVec rotated
    setRange result (i * 2) ![projected 0 / projected 2, projected 1 / projected 2]) result

/-- `MultiplePointProjection::jacobian`, MultiplePointProjection.h l.119-150. -/
def multiplePointProjectionJacobian (m_p3D : Fin n → Vec K 3) (m_cam : Mat K 3 3) (J : Mat K (2 * n) (3 + 4))
    (input : Vec K (3 + 4)) : Mat K (2 * n) (3 + 4) :=
  let rot := (Quat.fromVector (inputR input)).toMatrix
  (List.finRange n).foldl (fun J (i : Fin n) =>
    let rotated := rot.mulVec (m_p3D i) + inputT input
    let projected := m_cam.mulVec rotated
    let rotJ := quaternionRotationJacobian (m_p3D i) (inputR input)
    let projJ := dehomogenizationJacobian 2 projected
    let jT := projJ * m_cam
    setBlock (setBlock J (i * 2) 0 jT) (i * 2) 3 (jT * rotJ)) J

/-- `MultiplePointProjectionError::jacobian`, MultiplePointProjectionError.h l.78-109. -/
def multiplePointProjectionErrorJacobian (m_p3D : Fin n → Vec K 3) (m_cam : Mat K 3 3) (J : Mat K (2 * n) (3 + 3))
    (input : Vec K (3 + 4)) : Mat K (2 * n) (3 + 3) :=
  let rot := (Quat.fromVector (inputR input)).toMatrix
  (List.finRange n).foldl (fun J (i : Fin n) =>
    let rotated := rot.mulVec (m_p3D i) + inputT input
    let projected := m_cam.mulVec rotated
    let rotJ := quaternionRotationErrorJacobian (m_p3D i) (inputR input)
    let projJ := dehomogenizationJacobian 2 projected
    let jT := projJ * m_cam
    setBlock (setBlock J (i * 2) 0 jT) (i * 2) 3 (jT * rotJ)) J

/-- The 3x3 part of a 3x4 camera matrix, `subrange( cam, 0, 3, 0, 3 )`. -/
def cam33 (cam : Mat K 3 4) : Mat K 3 3 := Matrix.of fun i j => cam i j.castSucc

/-- The last column of a 3x4 camera matrix, `column( cam, 3 )`. -/
def camCol (cam : Mat K 3 4) : Vec K 3 := fun i => cam i 3

/-- `MultipleCameraProjectionError::jacobian`, MultipleCameraProjectionError.h l.84-119. -/
def multipleCameraProjectionErrorJacobian {np nc : ℕ} (m_p3D : Fin np → Vec K 3) (m_cam : Fin nc → Mat K 3 4)
    (m_vis : Fin n → Fin np × Fin nc) (J : Mat K (2 * n) (3 + 3)) (input : Vec K (3 + 4)) : Mat K (2 * n) (3 + 3) :=
  let rot := (Quat.fromVector (inputR input)).toMatrix
  (List.finRange n).foldl (fun J (i : Fin n) =>
    let p3D := m_p3D (m_vis i).1
    let cam := m_cam (m_vis i).2
    let rotated := rot.mulVec p3D + inputT input
    let projected := (cam33 cam).mulVec rotated + camCol cam
    let rotJ := quaternionRotationErrorJacobian p3D (inputR input)
    let projJ := dehomogenizationJacobian 2 projected
    let jT := projJ * cam33 cam
    setBlock (setBlock J (i * 2) 0 jT) (i * 2) 3 (jT * rotJ)) J

/-- The image of one point in `MultipleCameraProjection::evaluate`, MultipleCameraProjection.h l.103-117. -/
def cameraProjectOne (p3D : Vec K 3) (camP : Pose K) (camI : Mat K 3 3) (camD : Vec K 4) (rot : Mat K 3 3) (t : Vec K 3) :
    Vec K 2 :=
  let rotated := rot.mulVec p3D + t
  let camCoord := camP.apply rotated
  let camCoordDehom : Vec K 2 := ![camCoord 0 / camCoord 2, camCoord 1 / camCoord 2]
  let distorted := Camera.distort4 camCoordDehom camD
  let projected : Vec K 2 := ![camI 0 0 * distorted 0 + camI 0 1 * distorted 1, camI 1 0 * distorted 0 + camI 1 1 * distorted 1]
  ![(projected 0 + camI 0 2) * camI 2 2, (projected 1 + camI 1 2) * camI 2 2]

/-- `MultipleCameraProjection::evaluate`, MultipleCameraProjection.h l.85-121. -/
def multipleCameraProjection {np nc : ℕ} (m_p3D : Fin np → Vec K 3) (m_camP : Fin nc → Pose K) (m_camI : Fin nc → Mat K 3 3)
    (m_camD : Fin nc → Vec K 4) (m_vis : Fin n → Fin np × Fin nc) (result : Vec K (2 * n)) (input : Vec K (3 + 4)) :
    Vec K (2 * n) :=
  let rot := (Quat.fromVector (inputR input)).toMatrix
  (List.finRange n).foldl (fun result (i : Fin n) =>
    setRange result (2 * i.val) (cameraProjectOne (m_p3D (m_vis i).1) (m_camP (m_vis i).2) (m_camI (m_vis i).2) (m_camD (m_vis i).2)
      rot (inputT input))) result

/-- `MultipleCameraProjection::jacobian`, MultipleCameraProjection.h l.141-204. -/
def multipleCameraProjectionJacobian {np nc : ℕ} (m_p3D : Fin np → Vec K 3) (m_camP : Fin nc → Pose K)
    (m_camI : Fin nc → Mat K 3 3) (m_camD : Fin nc → Vec K 4) (m_vis : Fin n → Fin np × Fin nc)
    (J : Mat K (2 * n) (3 + 4)) (input : Vec K (3 + 4)) : Mat K (2 * n) (3 + 4) :=
  let rot := (Quat.fromVector (inputR input)).toMatrix
  (List.finRange n).foldl (fun J (i : Fin n) =>
    let p3D := m_p3D (m_vis i).1
    let camP := m_camP (m_vis i).2
    let camI := m_camI (m_vis i).2
    let camD := m_camD (m_vis i).2
    let rotated := rot.mulVec p3D + inputT input
    let camCoord := camP.apply rotated
    let camCoordDehom : Vec K 2 := ![camCoord 0 / camCoord 2, camCoord 1 / camCoord 2]
    let rotJ := quaternionRotationJacobian p3D (inputR input)
    let rotCamJ := camP.rotation.toMatrix
    let dehomJ := dehomogenizationJacobian 2 camCoord
    let distJ := Camera.distort4JacobianP camD camCoordDehom
    let jA := camI 2 2 • (!![camI 0 0, camI 0 1; camI 1 0, camI 1 1] * distJ)
    let jB := jA * dehomJ
    let jC := jB * rotCamJ
    setBlock (setBlock J (i * 2) 0 jC) (i * 2) 3 (jC * rotJ)) J

/-- `SinglePointMultiProjection::evaluate`, SinglePointMultiProjection.h l.86-93. -/
def singlePointMultiProjection (P : Fin n → Mat K 3 4) (result : Vec K (2 * n)) (input : Vec K 3) : Vec K (2 * n) :=
  (List.finRange n).foldl (fun result (i : Fin n) => setRange result (i * 2 + 0) (Geometry.projectPoint34_3 (P i) input)) result

/-- `SinglePointMultiProjection::jacobian`, SinglePointMultiProjection.h l.113-137. -/
def singlePointMultiProjectionJacobian (P : Fin n → Mat K 3 4) (J : Mat K (2 * n) 3) (input : Vec K 3) : Mat K (2 * n) 3 :=
  let vec : Vec K 3 := ![input 0, input 1, input 2]
  (List.finRange n).foldl (fun J (i : Fin n) =>
    let point := Geometry.transformPoint34_3 (P i) vec
    let P3_14p := point 2
    let P3_14p2 := 1 / (P3_14p * P3_14p)
    let P1_14p := P3_14p2 * point 0
    let P2_14p := P3_14p2 * point 1
    let P3_1 := P i 2 0
    let P3_2 := P i 2 1
    let P3_3 := P i 2 2
    setBlock J (i * 2) 0
      !![P i 0 0 / P3_14p - P3_1 * P1_14p, P i 0 1 / P3_14p - P3_2 * P1_14p, P i 0 2 / P3_14p - P3_3 * P1_14p;
         P i 1 0 / P3_14p - P3_1 * P2_14p, P i 1 1 / P3_14p - P3_2 * P2_14p, P i 1 2 / P3_14p - P3_3 * P2_14p]) J

end Alg

/-- `MultipleCameraProjectionErrorART::jacobian`, MultipleCameraProjectionErrorART.h l.89-136. -/
noncomputable def multipleCameraProjectionErrorARTJacobian {n np nc : ℕ} (m_p3D : Fin np → Vec ℝ 3) (m_cam : Fin nc → Mat ℝ 3 4)
    (m_vis : Fin n → Fin np × Fin nc) (m_centerOfGravity : Vec ℝ 3) (J : Mat ℝ (2 * n) (3 + 3)) (input : Vec ℝ (3 + 3)) :
    Mat ℝ (2 * n) (3 + 3) :=
  let rot := (Quat.fromLogarithm (inputR input)).toMatrix
  (List.finRange n).foldl (fun J (i : Fin n) =>
    let p3D := m_p3D (m_vis i).1
    let cam := m_cam (m_vis i).2
    let rotated := rot.mulVec (p3D - m_centerOfGravity)
    let translated := rotated + inputT input + rot.mulVec m_centerOfGravity
    let projected := (cam33 cam).mulVec translated + camCol cam
    let rotJ : Mat ℝ 3 3 :=
      !![0, rotated 2, -rotated 1;
         -rotated 2, 0, rotated 0;
         rotated 1, -rotated 0, 0]
    let projJ := dehomogenizationJacobian 2 projected
    let jT := projJ * cam33 cam
    setBlock (setBlock J (i * 2) 0 jT) (i * 2) 3 (jT * rotJ)) J

end ProjectionFunction

end Ubitrack

import Verif.Model.ProjectionFunction

/-!
# Simple bundle adjustment

src/utAlgorithm/BundleAdjustment.cpp: the objective function, the vector of observations, the vector of parameters and the
update of the caller's poses and points. The optimisation between them is `levenbergMarquardt` (Model/LevenbergMarquardt).

The objective writes into a result vector whose length is the number of observations and a matrix of that height; it is
modelled for `n_cams * n_pts3D` observations (with any other number the loop of the code leaves the buffers, see
`observationVector`). Index arithmetic is in `ℕ`.
-/

namespace Ubitrack

namespace BundleAdjustment

open ProjectionFunction

/-- `J( r, c ) = v`. -/
def setEntry {K : Type*} {m n : ℕ} (J : Mat K m n) (r c : ℕ) (v : K) : Mat K m n := fun r' c' =>
  if r'.val = r ∧ c'.val = c then v else J r' c'

section Alg

variable {K : Type*} [Field K] {n_cams n_pts3D : ℕ}

/-- Position of parameter `k` of camera `c`, BundleAdjustment.cpp l.112-119. -/
def camIdx (c : Fin n_cams) (k : Fin 7) : Fin (n_cams * 7 + n_pts3D * 3) := ⟨c * 7 + k, by omega⟩

/-- Position of coordinate `k` of point `p`, BundleAdjustment.cpp l.109, 126-129. -/
def pointIdx (p : Fin n_pts3D) (k : Fin 3) : Fin (n_cams * 7 + n_pts3D * 3) := ⟨n_cams * 7 + p * 3 + k, by omega⟩

/-- The pose of camera `c` read from the parameters (not normalised), BundleAdjustment.cpp l.112-121. -/
def inputPose (input : Vec K (n_cams * 7 + n_pts3D * 3)) (c : Fin n_cams) : Pose K :=
  ⟨⟨input (camIdx c 0), input (camIdx c 1), input (camIdx c 2), input (camIdx c 3)⟩,
    ![input (camIdx c 4), input (camIdx c 5), input (camIdx c 6)]⟩

/-- The 3D point `p` read from the parameters, BundleAdjustment.cpp l.126-131. -/
def inputPoint (input : Vec K (n_cams * 7 + n_pts3D * 3)) (p : Fin n_pts3D) : Vec K 3 :=
  ![input (pointIdx p 0), input (pointIdx p 1), input (pointIdx p 2)]

/-- The two elements of the result for one camera and one point, BundleAdjustment.cpp l.131-134. -/
def evaluateStep (input : Vec K (n_cams * 7 + n_pts3D * 3)) (result : Vec K (2 * (n_cams * n_pts3D))) (row_index : ℕ)
    (c : Fin n_cams) (p : Fin n_pts3D) : Vec K (2 * (n_cams * n_pts3D)) :=
  let pts := (inputPose input c).apply (inputPoint input p)
  setRange result row_index ![pts 0 / pts 2, pts 1 / pts 2]

/-- The entries of the Jacobian for one camera and one point, BundleAdjustment.cpp l.136-207. -/
def jacobianStep (input : Vec K (n_cams * 7 + n_pts3D * 3)) (J : Mat K (2 * (n_cams * n_pts3D)) (n_cams * 7 + n_pts3D * 3))
    (row_index : ℕ) (c : Fin n_cams) (p : Fin n_pts3D) : Mat K (2 * (n_cams * n_pts3D)) (n_cams * 7 + n_pts3D * 3) :=
  let camIndex := c.val * 7
  let qx := input (camIdx c 0)
  let qy := input (camIdx c 1)
  let qz := input (camIdx c 2)
  let qw := input (camIdx c 3)
  let tx := input (camIdx c 4)
  let ty := input (camIdx c 5)
  let tz := input (camIdx c 6)
  let pointIndex := n_cams * 7 + p.val * 3
  let x := input (pointIdx p 0)
  let y := input (pointIdx p 1)
  let z := input (pointIdx p 2)
  let jrow0 := row_index
  let jrow1 := jrow0 + 1
  let t2 := qw*qw
  let t3 := qx*qx
  let t4 := qy*qy
  let t5 := qz*qz
  let t6 := qw*qy*2
  let t7 := t2-t3-t4+t5
  let t8 := t7*z
  let t9 := qx*qz*2
  let t10 := qw*qx*2
  let t11 := qy*qz*2
  let t12 := t10+t11
  let t13 := t12*y
  let t14 := t6-t9
  let t23 := t14*x
  let t15 := t8+t13-t23+tz
  let t16 := t2+t3-t4-t5
  let t17 := t16*x
  let t18 := qw*qz*2
  let t33 := qx*qy*2
  let t19 := t18-t33
  let t20 := t6+t9
  let t21 := t20*z
  let t34 := t19*y
  let t22 := t17+t21-t34+tx
  let t24 := 1/(t15*t15)
  let t25 := qz*x*2
  let t26 := qw*y*2
  let t43 := qx*z*2
  let t27 := t25+t26-t43
  let t28 := 1/t15
  let t29 := qx*x*2
  let t30 := qy*y*2
  let t31 := qz*z*2
  let t32 := t29+t30+t31
  let t35 := qw*x*2
  let t36 := qy*z*2
  let t44 := qz*y*2
  let t37 := t35+t36-t44
  let t38 := qx*y*2
  let t39 := qw*z*2
  let t41 := qy*x*2
  let t40 := t38+t39-t41
  let t42 := t28*t40
  let t45 := t2-t3+t4-t5
  let t46 := t45*y
  let t47 := t18+t33
  let t48 := t47*x
  let t49 := t10-t11
  let t52 := t49*z
  let t50 := t46+t48-t52+ty
  let t51 := t28*t37
  let J := setEntry J jrow0 (camIndex + 0) (t32/(t8+t13+tz-x*(t6-qx*qz*2))-t22*t24*t27)
  let J := setEntry J jrow0 (camIndex + 1) (t42+t22*t24*t37)
  let J := setEntry J jrow0 (camIndex + 2) (-t27*t28-t22*t24*t32)
  let J := setEntry J jrow0 (camIndex + 3) (t51-t22*t24*t40)
  let J := setEntry J jrow0 (camIndex + 4) (t28)
  let J := setEntry J jrow0 (camIndex + 6) (-t22*t24)
  let J := setEntry J jrow0 (pointIndex + 0) (t16*t28+t14*t22*t24)
  let J := setEntry J jrow0 (pointIndex + 1) (-t19*t28-t12*t22*t24)
  let J := setEntry J jrow0 (pointIndex + 2) (t20*t28-t7*t22*t24)
  let J := setEntry J jrow1 (camIndex + 0) (-t42-t24*t27*t50)
  let J := setEntry J jrow1 (camIndex + 1) (t28*t32+t24*t37*t50)
  let J := setEntry J jrow1 (camIndex + 2) (t51-t24*t32*t50)
  let J := setEntry J jrow1 (camIndex + 3) (t27*t28-t24*t40*t50)
  let J := setEntry J jrow1 (camIndex + 5) (t28)
  let J := setEntry J jrow1 (camIndex + 6) (-t24*t50)
  let J := setEntry J jrow1 (pointIndex + 0) (t28*t47+t14*t24*t50)
  let J := setEntry J jrow1 (pointIndex + 1) (t28*t45-t12*t24*t50)
  let J := setEntry J jrow1 (pointIndex + 2) (-t28*t49-t7*t24*t50)
  J

/-- `evaluateWithJacobian`, BundleAdjustment.cpp l.94-213: `row_index` runs on over both loops. Returns the result and the
Jacobian; the previous content of both buffers is given. -/
def evaluateWithJacobian (input : Vec K (n_cams * 7 + n_pts3D * 3)) (result : Vec K (2 * (n_cams * n_pts3D)))
    (_J : Mat K (2 * (n_cams * n_pts3D)) (n_cams * 7 + n_pts3D * 3)) :
    Vec K (2 * (n_cams * n_pts3D)) × Mat K (2 * (n_cams * n_pts3D)) (n_cams * 7 + n_pts3D * 3) :=
  let s := (List.finRange n_cams).foldl (fun s c =>
    (List.finRange n_pts3D).foldl (fun s p =>
      ((evaluateStep input s.1.1 s.2 c p, jacobianStep input s.1.2 s.2 c p), s.2 + 2)) s) ((result, 0), 0)
  s.1

/-- The observations of all cameras, one after the other, BundleAdjustment.cpp l.253-266. -/
def observationVector (pts2D : List (List (Vec K 2))) : List K :=
  (pts2D.foldl (fun v cam => cam.foldl (fun v pt2D => v ++ [pt2D 0, pt2D 1]) v) [])

/-- The parameters to optimise, BundleAdjustment.cpp l.275-297. The vector is not initialised before it is filled. -/
def paramVector (uninit : Vec K (n_cams * 7 + n_pts3D * 3)) (poses : Fin n_cams → Pose K) (pts3D : Fin n_pts3D → Vec K 3) :
    Vec K (n_cams * 7 + n_pts3D * 3) :=
  let v := (List.finRange n_cams).foldl (fun v (c : Fin n_cams) =>
    let index := 7 * c.val
    setRange (setRange v index (poses c).rotation.toVector) (index + 4) (poses c).translation) uninit
  (List.finRange n_pts3D).foldl (fun v (p : Fin n_pts3D) => setRange v (n_cams * 7 + 3 * p.val) (pts3D p)) v

end Alg

/-- The points and poses written back to the caller, BundleAdjustment.cpp l.310-326. -/
noncomputable def writeBack {n_cams n_pts3D : ℕ} (paramVector : Vec ℝ (n_cams * 7 + n_pts3D * 3)) :
    (Fin n_cams → Pose ℝ) × (Fin n_pts3D → Vec ℝ 3) :=
  (fun c => ⟨(Quat.fromVector ![paramVector (camIdx c 0), paramVector (camIdx c 1), paramVector (camIdx c 2),
      paramVector (camIdx c 3)]).normalize, ![paramVector (camIdx c 4), paramVector (camIdx c 5), paramVector (camIdx c 6)]⟩,
    fun p => inputPoint paramVector p)

end BundleAdjustment

end Ubitrack

import Verif.Model.Containers

/-!
# Camera projection and lens distortion

src/utAlgorithm/CameraLens/Distortion.h, src/utAlgorithm/CameraLens/Undistortion.h,
src/utAlgorithm/Function/RadialDistortion.h, src/utAlgorithm/LensDistortion.cpp.

All output parameters may alias the inputs in the code (`project_impl( camIntrin, distorted, distorted )`); every function
computes its results in local variables before writing them, so that functions returning values are faithful.
-/

namespace Ubitrack

namespace Camera

variable {K : Type*} [Field K]

/-- `unproject_impl`, Distortion.h l.43-53. -/
def unproject (cam : Mat K 3 3) (pt : Vec K 2) : Vec K 2 :=
  let y := (pt 1 - cam 1 2 * cam 2 2) / cam 1 1
  let x := (pt 0 - cam 0 1 * y - cam 0 2 * cam 2 2) / cam 0 0
  ![x, y]

/-- `project_impl`, Distortion.h l.57-65. -/
def project (cam : Mat K 3 3) (pt : Vec K 2) : Vec K 2 :=
  ![pt 0 * cam 0 0 + pt 1 * cam 0 1 + cam 0 2 * cam 2 2, pt 1 * cam 1 1 + cam 1 2 * cam 2 2]

/-- `distort_impl` on sensor coordinates, Distortion.h l.69-86. -/
def distort6 (radVec : Vec K 6) (tanVec : Vec K 2) (pointIn : Vec K 2) : Vec K 2 :=
  let x := pointIn 0
  let y := pointIn 1
  let xx := x * x
  let xy2 := x * y * 2
  let yy := y * y
  let r2 := xx + yy
  let r4 := r2 * r2
  let r6 := r4 * r2
  let upper := 1 + radVec 0 * r2 + radVec 1 * r4 + radVec 2 * r6
  let lower := 1 + radVec 3 * r2 + radVec 4 * r4 + radVec 5 * r6
  let ratio := upper / lower
  ![x * ratio + tanVec 0 * xy2 + tanVec 1 * (r2 + xx * 2), y * ratio + tanVec 1 * xy2 + tanVec 0 * (r2 + yy * 2)]

/-- `distort_impl` with camera intrinsics on pixels, Distortion.h l.90-97. -/
def distort (cam : CameraIntrinsics K) (undistorted : Vec K 2) : Vec K 2 :=
  project cam.matrix (distort6 cam.radialParams cam.tangentialParams (unproject cam.matrix undistorted))

/-- `PointUndistortion::jacobian`, Undistortion.h l.114-177. -/
def distort6Jacobian (m_k : Vec K 6) (m_p : Vec K 2) (input : Vec K 2) : Mat K 2 2 :=
  let x := input 0
  let y := input 1
  let k1 := m_k 0
  let k2 := m_k 1
  let k3 := m_k 2
  let k4 := m_k 3
  let k5 := m_k 4
  let k6 := m_k 5
  let p1 := m_p 0
  let p2 := m_p 1
  let t3 := x * x
  let t4 := y * y
  let t2 := t3 + t4
  let t5 := t2 * t2
  let t6 := k5 * t5
  let t7 := k6 * t2 * t5
  let t8 := k4 * t2
  let t9 := t6 + t7 + t8 + 1
  let t10 := 1 / t9
  let t11 := k2 * t5
  let t12 := k3 * t2 * t5
  let t13 := k1 * t2
  let t14 := t11 + t12 + t13 + 1
  let t15 := 1 / (t9 * t9)
  let t16 := p1 * x * 2
  let t17 := p2 * y * 2
  let t18 := k1 * x * 2
  let t19 := k2 * t2 * x * 4
  let t20 := k3 * t5 * x * 6
  let t21 := t18 + t19 + t20
  let t22 := k4 * x * 2
  let t23 := k5 * t2 * x * 4
  let t24 := k6 * t5 * x * 6
  let t25 := t22 + t23 + t24
  let t26 := t10 * t14
  let t27 := k1 * y * 2
  let t28 := k2 * t2 * y * 4
  let t29 := k3 * t5 * y * 6
  let t30 := t27 + t28 + t29
  let t31 := k4 * y * 2
  let t32 := k5 * t2 * y * 4
  let t33 := k6 * t5 * y * 6
  let t34 := t31 + t32 + t33
  !![t26 + p2 * x * 6 + p1 * y * 2 + t10 * t21 * x - t14 * t15 * t25 * x, t16 + t17 + t10 * t30 * x - t14 * t15 * t34 * x;
     t16 + t17 + t10 * t21 * y - t14 * t15 * t25 * y, t26 + p2 * x * 2 + p1 * y * 6 + t10 * t30 * y - t14 * t15 * t34 * y]

/-- `radialDistortion`, RadialDistortion.h l.41-47. -/
def distort4 (p : Vec K 2) (d : Vec K 4) : Vec K 2 :=
  let r2 := p 0 * p 0 + p 1 * p 1
  let result : Vec K 2 := (1 + d 0 * r2 + d 1 * r2 * r2) • p
  ![result 0 + (2 * d 2 * p 0 * p 1 + d 3 * (r2 + 2 * p 0 * p 0)),
    result 1 + (2 * d 3 * p 0 * p 1 + d 2 * (r2 + 2 * p 1 * p 1))]

/-- `RadialDistortionWrtP::jacobian`, RadialDistortion.h l.102-126. -/
def distort4JacobianP (m_d : Vec K 4) (input : Vec K 2) : Mat K 2 2 :=
  let t331 := input 0 * input 0
  let t332 := input 1 * input 1
  let t340 := m_d 2 * input 0
  let t341 := t331 + t332
  let t342 := 2 * m_d 1 * t341
  let t343 := m_d 0 + t342
  let t344 := input 0 * t343
  let t345 := m_d 3 + t344
  let t346 := input 1 * t345
  let t347 := t340 + t346
  let t348 := 2 * t347
  let t328 := t331 * t331
  let t333 := 6 * m_d 1 * t331 * t332
  let t334 := t332 * t332
  !![1 + 6 * m_d 3 * input 0 + 2 * m_d 2 * input 1 + 5 * m_d 1 * t328 + m_d 0 * (3 * t331 + t332) + t333 + m_d 1 * t334, t348;
     t348, 1 + 2 * m_d 3 * input 0 + 6 * m_d 2 * input 1 + m_d 1 * t328 + m_d 0 * (t331 + 3 * t332) + t333 + 5 * m_d 1 * t334]

/-- `RadialDistortionWrtD::jacobian`, RadialDistortion.h l.185-202. -/
def distort4JacobianD (m_p : Vec K 2) : Mat K 2 4 :=
  let t380 := m_p 0 * m_p 0
  let t381 := m_p 1 * m_p 1
  let t382 := t380 + t381
  let t384 := t382 * t382
  let t386 := 2 * m_p 0 * m_p 1
  !![m_p 0 * t382, m_p 0 * t384, t386, 3 * t380 + t381;
     m_p 1 * t382, m_p 1 * t384, t380 + 3 * t381, t386]

/-- `projectWithDistortionImpl`, LensDistortion.cpp l.42-56. -/
def projectWithDistortion (p : Vec K 3) (dist : Vec K 4) (k : Mat K 3 3) : Vec K 2 :=
  let dp := distort4 ![p 0 / p 2, p 1 / p 2] dist
  ![(dp 0 * k 0 0 + dp 1 * k 0 1 + k 0 2) / k 2 2, (dp 1 * k 1 1 + k 1 2) / k 2 2]

/-- `lensDistortImpl`, LensDistortion.cpp l.74-88. -/
def lensDistort (p : Vec K 2) (dist : Vec K 4) (k : Mat K 3 3) : Vec K 2 :=
  let x2 := (p 1 - k 1 2 * k 2 2) / k 1 1
  let x1 := (p 0 - k 0 1 * x2 - k 0 2 * k 2 2) / k 0 0
  let dp := distort4 ![x1, x2] dist
  ![dp 0 * k 0 0 + dp 1 * k 0 1 + k 0 2 * k 2 2, dp 1 * k 1 1 + k 1 2 * k 2 2]

end Camera

end Ubitrack

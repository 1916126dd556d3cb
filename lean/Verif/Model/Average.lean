import Verif.Model.Pose
import Verif.Model.ErrorPose

/-!
# Online averages and correlation

Models `utMath/Stochastic/Average.h` and `utMath/Stochastic/Correlation.h` over exact reals. The accumulators are used
through `std::for_each`, i.e. as a left fold over the data.
-/

namespace Ubitrack.Average

open scoped Matrix

variable {n : ℕ}

/-- The state of an `Average`, Average.h l.95-99: counter and sum. -/
structure Acc (n : ℕ) where
  counter : ℕ
  mean : Vec ℝ n

/-- The constructor, l.102-105. -/
def Acc.init : Acc n := ⟨0, 0⟩

/-- `operator()`, l.108-114 (with `castToVector` the identity for vectors). For scalars (l.140-144) use `n = 1`. -/
def Acc.push (a : Acc n) (v : Vec ℝ n) : Acc n := ⟨a.counter + 1, a.mean + v⟩

/-- `m_mean / m_counter`, l.119, l.148, l.166, l.194. -/
noncomputable def Acc.quotient (a : Acc n) : Vec ℝ n := fun i => a.mean i / a.counter

/-- `getAverage` for vectors and scalars, l.117-120, l.146-149. -/
noncomputable def vectorAverage (data : List (Vec ℝ n)) : Vec ℝ n := (data.foldl Acc.push .init).quotient

open Classical in
/-- `operator()` for quaternions, l.153-160. -/
noncomputable def pushQuat (a : Acc 4) (q : Quat ℝ) : Acc 4 :=
  let tmp := q.toVector
  ⟨a.counter + 1, a.mean + (if q.w ≥ 0 then tmp else (-1 : ℝ) • tmp)⟩

/-- `getAverage` for quaternions, l.163-168. -/
noncomputable def quatAverage (data : List (Quat ℝ)) : Quat ℝ :=
  let mean := (data.foldl pushQuat .init).quotient
  (Quat.mk (mean 0) (mean 1) (mean 2) (mean 3)).normalize

open Classical in
/-- The vector of a pose with non-negative real part, l.175-185 and l.255-266. -/
noncomputable def hemisphere (p : Pose ℝ) : Vec ℝ 7 :=
  let tmp := p.toVector
  if tmp 6 < 0 then ![tmp 0, tmp 1, tmp 2, tmp 3 * -1, tmp 4 * -1, tmp 5 * -1, tmp 6 * -1] else tmp

/-- `operator()` for poses, l.171-187. -/
noncomputable def pushPose (a : Acc 7) (p : Pose ℝ) : Acc 7 := ⟨a.counter + 1, a.mean + hemisphere p⟩

/-- `getAverage` for poses, l.190-197, of an accumulator. -/
noncomputable def Acc.poseAverage (a : Acc 7) : Pose ℝ :=
  let pose := Pose.fromVector a.quotient
  ⟨pose.rotation.normalize, pose.translation⟩

/-- Average of poses. -/
noncomputable def poseAverage (data : List (Pose ℝ)) : Pose ℝ := (data.foldl pushPose .init).poseAverage

/-- The state of an `Average< ErrorVector >` or `Average< ErrorPose >`, l.211, l.246. -/
structure AccCov (n : ℕ) where
  acc : Acc n
  covariance : Mat ℝ n n

/-- The constructors, l.213-216, l.248-251. -/
def AccCov.init : AccCov n := ⟨.init, 0⟩

/-- `operator()`, l.218-222. -/
def AccCov.push (a : AccCov n) (v : Vec ℝ n) : AccCov n :=
  ⟨a.acc.push v, a.covariance + Matrix.of fun i j => v i * v j⟩

/-- `getAverage` with covariance, l.224-229. -/
noncomputable def errorVectorAverage (data : List (Vec ℝ n)) : ErrorVector ℝ n :=
  let a := data.foldl AccCov.push .init
  let mean := a.acc.quotient
  let covarianz : Mat ℝ n n := Matrix.of fun i j => a.covariance i j / a.acc.counter
  ⟨mean, covarianz - Matrix.of fun i j => mean i * mean j⟩

/-- `operator()`, l.253-270. -/
noncomputable def pushErrorPose (a : AccCov 7) (p : Pose ℝ) : AccCov 7 :=
  let tmp := hemisphere p
  ⟨⟨a.acc.counter + 1, a.acc.mean + tmp⟩, a.covariance + Matrix.of fun i j => tmp i * tmp j⟩

/-- `getAverage` for uncertain poses, l.272-316. -/
noncomputable def errorPoseAverage (data : List (Pose ℝ)) : ErrorPose ℝ :=
  let a := data.foldl pushErrorPose .init
  let meanPose := a.acc.poseAverage
  let meanVec := meanPose.toVector
  let invMeanVec := meanPose.inv.toVector
  let covarianz : Mat ℝ 7 7 := Matrix.of fun i j => a.covariance i j / a.acc.counter
  let ev : ErrorVector ℝ 7 := ⟨invMeanVec, covarianz - Matrix.of fun i j => meanVec i * meanVec j⟩
  ⟨meanPose, (ErrorPose.fromAdditive ev).covariance⟩

/-- `correlation`, Correlation.h l.32-83. `none`: one sequence is empty, the other not (assertions l.43-44). -/
noncomputable def correlation (l1 l2 : List ℝ) : Option ℝ :=
  if l1.length = 0 ∧ l2.length = 0 then some 1
  else if l1.length = 0 ∨ l2.length = 0 then none
  else
    let n := min l1.length l2.length
    -- l.56-64: one loop over both chunks
    let sums := ((l1.take n).zip l2).foldl (fun s x => (s.1 + x.1, s.2 + x.2)) ((0 : ℝ), (0 : ℝ))
    let m1 := sums.1 / n
    let m2 := sums.2 / n
    -- l.67-78
    let r := ((l1.take n).zip l2).foldl (fun s x =>
      let diff1 := x.1 - m1
      let diff2 := x.2 - m2
      (s.1 + diff1 * diff2, s.2.1 + diff1 * diff1, s.2.2 + diff2 * diff2)) ((0 : ℝ), (0 : ℝ), (0 : ℝ))
    let denom := Real.sqrt (r.2.1 * r.2.2)
    some (r.1 / denom)

end Ubitrack.Average

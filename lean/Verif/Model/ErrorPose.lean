import Verif.Model.Pose
import Verif.Model.Kalman

/-!
# Poses with uncertainty

Models `utMath/ErrorPose.h` and `utMath/ErrorPose.cpp`. The Jacobians are transcribed mechanically, with the names of
the intermediate variables of the (generated) C++ code. `invertMultiplyJacobians` (l.293-458) is not called anywhere
and not modelled.
-/

namespace Ubitrack

open Stochastic
open scoped Matrix

namespace ErrorPose

variable {K : Type*} [CommRing K]

/-- `inversionJacobian`, ErrorPose.cpp l.45-132. -/
def inversionJacobian (p : Pose K) : Mat K 6 6 :=
  let t5364 := p.rotation.x
  let t5362 := p.rotation.w
  let t5369 := p.rotation.y
  let t5371 := p.rotation.z
  let t5378 := p.translation 0
  let t5380 := p.translation 1
  let t5365 := t5364 * t5364
  let t5386 := p.translation 2
  let t5382 := t5369 * t5378
  let t5363 := t5362 * t5362
  let t5388 := t5369 * t5369
  let t5379 := 2 * t5364 * t5371 * t5378
  let t5381 := 2 * t5369 * t5371 * t5380
  let t5383 := -(t5364 * t5380)
  let t5384 := t5382 + t5383
  let t5385 := 2 * t5362 * t5384
  let t5387 := -2 * t5365 * t5386
  let t5389 := -2 * t5386 * t5388
  let t5390 := t5379 + t5381 + t5385 + t5386 + t5387 + t5389
  let t5394 := t5371 * t5371
  let t5392 := -2 * t5362 * t5371 * t5378
  let t5393 := -2 * t5365 * t5380
  let t5395 := -2 * t5380 * t5394
  let t5396 := 2 * t5369 * t5371 * t5386
  let t5397 := t5362 * t5386
  let t5398 := t5382 + t5397
  let t5399 := 2 * t5364 * t5398
  let t5400 := t5380 + t5392 + t5393 + t5395 + t5396 + t5399
  let t5417 := t5371 * t5380
  let t5418 := -(t5369 * t5386)
  let t5419 := t5417 + t5418
  let t5420 := t5362 * t5419
  let t5421 := t5369 * t5380
  let t5422 := t5371 * t5386
  let t5423 := t5421 + t5422
  let t5424 := t5364 * t5423
  let t5425 := t5420 + t5424
  let t5428 := t5362 * t5369
  let t5429 := t5364 * t5371
  let t5430 := t5428 + t5429
  let t5370 := t5364 * t5369
  let t5372 := t5362 * t5371
  let t5373 := t5370 + t5372
  let t5446 := -2 * t5394
  let t5408 := t5362 * t5364
  let t5409 := t5369 * t5371
  let t5410 := t5408 + t5409
  let t5453 := -2 * t5365
  let t5445 := -2 * t5388
  !![1 - 2 * (t5363 + t5365),
       -2 * t5373,
       2 * t5362 * t5369 - 2 * t5364 * t5371,
       0,
       2 * t5390,
       -2 * t5400;
     -2 * t5364 * t5369 + 2 * t5362 * t5371,
       1 - 2 * (t5363 + t5388),
       -2 * t5410,
       -2 * t5390,
       0,
       t5378 * (2 - 4 * t5388 - 4 * t5394) + 4 * t5425;
     -2 * t5430,
       2 * t5362 * t5364 - 2 * t5369 * t5371,
       1 - 2 * (t5363 + t5394),
       2 * t5400,
       t5378 * (-2 + 4 * t5388 + 4 * t5394) - 4 * t5425,
       0;
     0,
       0,
       0,
       1 + t5445 + t5446,
       2 * t5364 * t5369 - 2 * t5362 * t5371,
       2 * t5430;
     0,
       0,
       0,
       2 * t5373,
       1 + t5446 + t5453,
       -2 * t5362 * t5364 + 2 * t5369 * t5371;
     0,
       0,
       0,
       -2 * t5362 * t5369 + 2 * t5364 * t5371,
       2 * t5410,
       1 + t5445 + t5453]

/-- `multiplicationJacobians`, ErrorPose.cpp l.135-250, first result `j1`. -/
def multiplicationJacobian1 (p1 p2 : Pose K) : Mat K 6 6 :=
  let t5559 := p1.rotation.y
  let t5557 := p2.translation 1
  let t5556 := p1.rotation.z
  let t5560 := p2.translation 2
  let t5564 := p1.rotation.w
  let t5555 := p1.rotation.x
  let t5573 := p2.translation 0
  let t5576 := t5555 * t5555
  let t5588 := t5556 * t5556
  let t5589 := 2 * t5588
  let t5566 := t5556 * t5560
  let t5575 := t5564 * t5564
  let t5586 := t5559 * t5559
  let t5582 := t5555 * t5559
  let t5609 := 4 * t5575
  let t5594 := t5556 * t5559
  let t5610 := 4 * t5586
  let t5571 := t5555 * t5556
  let t5605 := t5555 * t5573
  let t5565 := t5557 * t5559
  let t5638 := p2.rotation.y
  let t5641 := p2.rotation.z
  let t5647 := p2.rotation.w
  let t5645 := p2.rotation.x
  let t5642 := t5641 * t5641
  let t5643 := -2 * t5642
  let t5657 := t5645 * t5645
  let t5658 := -2 * t5657
  let t5639 := t5638 * t5638
  let t5640 := -2 * t5639
  let t5577 := t5575 + t5576
  let t5578 := 2 * t5577
  let t5579 := -1 + t5578
  let t5570 := t5559 * t5564
  let t5572 := t5570 + t5571
  let t5613 := t5556 * t5564
  let t5614 := t5582 + t5613
  let t5620 := t5555 * t5564
  let t5621 := t5594 + t5620
  !![1,
       0,
       0,
       4 * t5555 * (t5556 * t5557 - t5559 * t5560) + 4 * t5564 * (t5565 + t5566),
       -4 * t5572 * t5573 + 2 * t5560 * t5579,
       4 * t5573 * (-(t5556 * t5564) + t5582) + 2 * t5557 * (-1 + 2 * t5586 + t5589);
     0,
       1,
       0,
       2 * t5560 * (-1 + 2 * t5576 + t5589) + 4 * t5557 * (-(t5555 * t5564) + t5594),
       4 * t5559 * (t5555 * t5560 - t5556 * t5573) + 4 * t5564 * (t5566 + t5605),
       t5573 * (-2 + t5609 + t5610) - 4 * t5557 * t5614;
     0,
       0,
       1,
       t5557 * (-2 + 4 * t5588 + t5609) - 4 * t5560 * t5621,
       4 * t5560 * (-(t5559 * t5564) + t5571) + t5573 * (-2 + 4 * t5576 + t5610),
       4 * t5556 * (-(t5555 * t5557) + t5559 * t5573) + 4 * t5564 * (t5565 + t5605);
     0,
       0,
       0,
       1 + t5640 + t5643,
       2 * (t5638 * t5645 + t5641 * t5647),
       2 * t5641 * t5645 - 2 * t5638 * t5647;
     0,
       0,
       0,
       2 * t5638 * t5645 - 2 * t5641 * t5647,
       1 + t5643 + t5658,
       2 * (t5638 * t5641 + t5645 * t5647);
     0,
       0,
       0,
       2 * (t5641 * t5645 + t5638 * t5647),
       2 * t5638 * t5641 - 2 * t5645 * t5647,
       1 + t5640 + t5658]

/-- `multiplicationJacobians`, ErrorPose.cpp l.135-250, second result `j2` (which does not depend on `p2`). -/
def multiplicationJacobian2 (p1 : Pose K) : Mat K 6 6 :=
  let t5559 := p1.rotation.y
  let t5556 := p1.rotation.z
  let t5564 := p1.rotation.w
  let t5555 := p1.rotation.x
  let t5576 := t5555 * t5555
  let t5588 := t5556 * t5556
  let t5575 := t5564 * t5564
  let t5586 := t5559 * t5559
  let t5582 := t5555 * t5559
  let t5594 := t5556 * t5559
  let t5571 := t5555 * t5556
  let t5577 := t5575 + t5576
  let t5578 := 2 * t5577
  let t5579 := -1 + t5578
  let t5570 := t5559 * t5564
  let t5572 := t5570 + t5571
  let t5613 := t5556 * t5564
  let t5614 := t5582 + t5613
  let t5620 := t5555 * t5564
  let t5621 := t5594 + t5620
  !![t5579,
       2 * t5555 * t5559 - 2 * t5556 * t5564,
       2 * t5572,
       0,
       0,
       0;
     2 * t5614,
       -1 + 2 * (t5575 + t5586),
       2 * t5556 * t5559 - 2 * t5555 * t5564,
       0,
       0,
       0;
     2 * t5555 * t5556 - 2 * t5559 * t5564,
       2 * t5621,
       -1 + 2 * (t5575 + t5588),
       0,
       0,
       0;
     0,
       0,
       0,
       1,
       0,
       0;
     0,
       0,
       0,
       0,
       1,
       0;
     0,
       0,
       0,
       0,
       0,
       1]

/-- `errorPoseTimesVectorJacobian`, ErrorPose.cpp l.252-291. -/
def errorPoseTimesVectorJacobian (p : Pose K) (v : Vec K 3) : Mat K 3 6 :=
  let t216 := p.rotation.y
  let t214 := v 1
  let t213 := p.rotation.z
  let t217 := v 2
  let t221 := p.rotation.w
  let t212 := p.rotation.x
  let t228 := v 0
  let t231 := t221 * t221
  let t233 := t212 * t212
  let t235 := t216 * t216
  let t236 := t213 * t213
  let t237 := t235 + t236
  let t223 := t213 * t217
  let t264 := -(t228 * t231)
  let t265 := t228 * t233
  let t259 := t212 * t228
  let t222 := t214 * t216
  !![1,
       0,
       0,
       4 * (t212 * (t213 * t214 - t216 * t217) + t221 * (t222 + t223)),
       2 * (-2 * t212 * t213 * t228 - 2 * t216 * t221 * t228 + t217 * t231 + t217 * t233 - t217 * t237),
       4 * t212 * t216 * t228 - 4 * t213 * t221 * t228 - 2 * t214 * t231 - 2 * t214 * t233 + 2 * t214 * t237;
     0,
       1,
       0,
       2 * (2 * t213 * t214 * t216 - 2 * t212 * t214 * t221 - t217 * t231 - t217 * t235 + t217 * (t233 + t236)),
       4 * (t216 * (t212 * t217 - t213 * t228) + t221 * (t223 + t259)),
       -2 * (2 * t212 * t214 * t216 + 2 * t213 * t214 * t221 + t228 * (-t235 + t236) + t264 + t265);
     0,
       0,
       1,
       -2 * (2 * t213 * t216 * t217 + 2 * t212 * t217 * t221 - t214 * t231 + t214 * t233 + t214 * t235 - t214 * t236),
       2 * (2 * t212 * t213 * t217 - 2 * t216 * t217 * t221 + t228 * (t235 - t236) + t264 + t265),
       4 * (t213 * (-(t212 * t214) + t216 * t228) + t221 * (t222 + t259))]


/-- `ErrorConversion::evaluateWithJacobian`, ErrorPose.cpp l.472-483. -/
def errorConversion (r : Quat K) : Functor K 4 4 := fun input =>
  (input,
   !![r.w, r.z, -r.y, -r.x;
      -r.z, r.w, r.x, -r.y;
      r.y, -r.x, r.w, -r.z;
      r.x, r.y, r.z, r.w])

/-- `operator~`, ErrorPose.cpp l.490-501. -/
def inv (a : ErrorPose K) : ErrorPose K :=
  let jacobian := inversionJacobian a.toPose
  let tmp := jacobian * a.covariance
  ⟨a.toPose.inv, tmp * jacobianᵀ⟩

/-- `operator*( ErrorPose, ErrorPose )`, ErrorPose.cpp l.504-520. -/
def mul (a b : ErrorPose K) : ErrorPose K :=
  let jacobian1 := multiplicationJacobian1 a.toPose b.toPose
  let jacobian2 := multiplicationJacobian2 a.toPose
  let c := jacobian1 * a.covariance * jacobian1ᵀ
  ⟨a.toPose.mul b.toPose, c + jacobian2 * b.covariance * jacobian2ᵀ⟩

/-- `operator*( Pose, ErrorPose )`, ErrorPose.cpp l.523-537. -/
def poseMul (a : Pose K) (b : ErrorPose K) : ErrorPose K :=
  let jacobian2 := multiplicationJacobian2 a
  ⟨a.mul b.toPose, jacobian2 * b.covariance * jacobian2ᵀ⟩

/-- `operator*( ErrorPose, Pose )`, ErrorPose.cpp l.540-554. -/
def mulPose (a : ErrorPose K) (b : Pose K) : ErrorPose K :=
  let jacobian1 := multiplicationJacobian1 a.toPose b
  ⟨a.toPose.mul b, jacobian1 * a.covariance * jacobian1ᵀ⟩

/-- `operator*( ErrorPose, Vector )`, ErrorPose.cpp l.557-570. -/
def mulVector (a : ErrorPose K) (b : Vec K 3) : ErrorVector K 3 :=
  let jacobian := errorPoseTimesVectorJacobian a.toPose b
  ⟨a.toPose.apply b, jacobian * a.covariance * jacobianᵀ⟩

/-- `operator*( ErrorPose, ErrorVector )`, ErrorPose.cpp l.574-588. -/
def mulErrorVector (a : ErrorPose K) (b : ErrorVector K 3) : ErrorVector K 3 :=
  let jacobian := errorPoseTimesVectorJacobian a.toPose b.value
  ⟨a.toPose.apply b.value, jacobian * a.covariance * jacobianᵀ⟩

/-- `invertMultiply`, ErrorPose.cpp l.591-607. -/
def invertMultiply (a b : ErrorPose K) : ErrorPose K :=
  let jacobian1 := multiplicationJacobian1 a.toPose b.toPose
  let jacobian2 := multiplicationJacobian2 a.toPose
  let c := jacobian1 * a.covariance * jacobian1ᵀ
  ⟨a.toPose.inv.mul b.toPose, c + jacobian2 * b.covariance * jacobian2ᵀ⟩

/-- The covariance set up in `toAdditiveErrorVector`, ErrorPose.cpp l.614-618. -/
def additiveCov (C : Mat K 6 6) : Mat K 7 7 := Matrix.of fun i j =>
  if hi : i.val < 6 then
    if hj : j.val < 6 then C ⟨i, hi⟩ ⟨j, hj⟩ else 0
  else if j.val < 6 then 0
  else C 3 3 + C 4 4 + C 5 5

/-- `toAdditiveErrorVector`, ErrorPose.cpp l.610-621. -/
def toAdditive (a : ErrorPose K) : ErrorVector K 7 :=
  transformRange (errorConversion a.toPose.rotation) ⟨a.toPose.toVector, additiveCov a.covariance⟩ 3 3 (by omega)

/-- `fromAdditiveErrorVector`, ErrorPose.cpp l.624-631. -/
def fromAdditive (v : ErrorVector K 7) : ErrorPose K :=
  let q : Quat K := Quat.fromVector ![v.value 3, v.value 4, v.value 5, v.value 6]
  let p := transformRange (errorConversion q.conj) v 3 3 (by omega)
  ⟨Pose.fromVector p.value, p.covariance.submatrix (Fin.castLE (by omega)) (Fin.castLE (by omega))⟩

/-- `linearInterpolate`, ErrorPose.cpp l.633-640. -/
noncomputable def linearInterpolate (x y : ErrorPose ℝ) (t : ℝ) : ErrorPose ℝ :=
  let a := (1 - t) * (1 - t)
  let b := t * t
  ⟨Pose.linearInterpolate x.toPose y.toPose t, a • x.covariance + b • y.covariance⟩

end ErrorPose

end Ubitrack

import Verif.Model.Pose
import Mathlib.Analysis.Calculus.Deriv.Add
import Mathlib.Analysis.Calculus.Deriv.Mul
import Mathlib.Analysis.Calculus.Deriv.Pow

/-!
# Derivatives of quaternion expressions along curves
-/

namespace Ubitrack

/-- Componentwise derivative of a curve of quaternions. -/
structure HasDerivQ (q : ℝ → Quat ℝ) (q' : Quat ℝ) (s : ℝ) : Prop where
  x : HasDerivAt (fun t => (q t).x) q'.x s
  y : HasDerivAt (fun t => (q t).y) q'.y s
  z : HasDerivAt (fun t => (q t).z) q'.z s
  w : HasDerivAt (fun t => (q t).w) q'.w s

theorem HasDerivQ.const (q : Quat ℝ) (s : ℝ) : HasDerivQ (fun _ => q) ⟨0, 0, 0, 0⟩ s :=
  ⟨hasDerivAt_const _ _, hasDerivAt_const _ _, hasDerivAt_const _ _, hasDerivAt_const _ _⟩

theorem HasDerivQ.conj {q : ℝ → Quat ℝ} {q' : Quat ℝ} {s : ℝ} (h : HasDerivQ q q' s) :
    HasDerivQ (fun t => (q t).conj) q'.conj s :=
  ⟨h.x.neg, h.y.neg, h.z.neg, h.w⟩

/-- The sum of two quaternions. -/
def Quat.add (p q : Quat ℝ) : Quat ℝ := ⟨p.x + q.x, p.y + q.y, p.z + q.z, p.w + q.w⟩

theorem HasDerivQ.mul {p q : ℝ → Quat ℝ} {p' q' : Quat ℝ} {s : ℝ} (hp : HasDerivQ p p' s) (hq : HasDerivQ q q' s) :
    HasDerivQ (fun t => (p t).mul (q t)) ((p'.mul (q s)).add ((p s).mul q')) s := by
  refine ⟨?_, ?_, ?_, ?_⟩
  · refine HasDerivAt.congr_deriv ((((hp.w.mul hq.x).add (hp.x.mul hq.w)).add (hp.y.mul hq.z)).sub (hp.z.mul hq.y)) ?_
    simp only [Quat.add, Quat.mul]; ring
  · refine HasDerivAt.congr_deriv ((((hp.w.mul hq.y).sub (hp.x.mul hq.z)).add (hp.y.mul hq.w)).add (hp.z.mul hq.x)) ?_
    simp only [Quat.add, Quat.mul]; ring
  · refine HasDerivAt.congr_deriv ((((hp.w.mul hq.z).add (hp.x.mul hq.y)).sub (hp.y.mul hq.x)).add (hp.z.mul hq.w)) ?_
    simp only [Quat.add, Quat.mul]; ring
  · refine HasDerivAt.congr_deriv ((((hp.w.mul hq.w).sub (hp.x.mul hq.x)).sub (hp.y.mul hq.y)).sub (hp.z.mul hq.z)) ?_
    simp only [Quat.add, Quat.mul]; ring

/-- The derivative of the rotated vector. -/
def rotateD (q q' : Quat ℝ) (v v' : Vec ℝ 3) : Vec ℝ 3 :=
  q.rotate v' +
  ![v 0 * (4 * (q.x * q'.x + q.w * q'.w)) + v 1 * 2 * (q'.x * q.y + q.x * q'.y - q'.w * q.z - q.w * q'.z) +
      v 2 * 2 * (q'.w * q.y + q.w * q'.y + q'.x * q.z + q.x * q'.z),
    v 0 * 2 * (q'.x * q.y + q.x * q'.y + q'.w * q.z + q.w * q'.z) + v 1 * (4 * (q.y * q'.y + q.w * q'.w)) +
      v 2 * 2 * (q'.y * q.z + q.y * q'.z - q'.w * q.x - q.w * q'.x),
    v 0 * 2 * (q'.x * q.z + q.x * q'.z - q'.w * q.y - q.w * q'.y) +
      v 1 * 2 * (q'.w * q.x + q.w * q'.x + q'.y * q.z + q.y * q'.z) + v 2 * (4 * (q.z * q'.z + q.w * q'.w))]

theorem HasDerivQ.rotate {q : ℝ → Quat ℝ} {q' : Quat ℝ} {s : ℝ} (hq : HasDerivQ q q' s) {v : ℝ → Vec ℝ 3} {v' : Vec ℝ 3}
    (hv : ∀ i, HasDerivAt (fun t => v t i) (v' i) s) (i : Fin 3) :
    HasDerivAt (fun t => (q t).rotate (v t) i) (rotateD (q s) q' (v s) v' i) s := by
  have xx := hq.x.mul hq.x
  have yy := hq.y.mul hq.y
  have zz := hq.z.mul hq.z
  have ww := hq.w.mul hq.w
  have xy := hq.x.mul hq.y
  have xz := hq.x.mul hq.z
  have yz := hq.y.mul hq.z
  have wx := hq.w.mul hq.x
  have wy := hq.w.mul hq.y
  have wz := hq.w.mul hq.z
  fin_cases i
  · refine HasDerivAt.congr_deriv ((((hv 0).mul (((xx.add ww).const_mul 2).sub_const 1)).add (((hv 1).mul_const 2).mul (xy.sub wz))).add
      (((hv 2).mul_const 2).mul (wy.add xz))) ?_
    simp [rotateD, Quat.rotate]; ring
  · refine HasDerivAt.congr_deriv (((((hv 0).mul_const 2).mul (xy.add wz)).add ((hv 1).mul (((yy.add ww).const_mul 2).sub_const 1))).add
      (((hv 2).mul_const 2).mul (yz.sub wx))) ?_
    simp [rotateD, Quat.rotate]; ring
  · refine HasDerivAt.congr_deriv (((((hv 0).mul_const 2).mul (xz.sub wy)).add (((hv 1).mul_const 2).mul (wx.add yz))).add
      ((hv 2).mul (((zz.add ww).const_mul 2).sub_const 1))) ?_
    simp [rotateD, Quat.rotate]; ring

end Ubitrack

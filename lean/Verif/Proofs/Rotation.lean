import Verif.Spec.Rotation
import Mathlib.Tactic.Ring
import Mathlib.Tactic.LinearCombination
import Mathlib.Tactic.FinCases

namespace Ubitrack.Quat
open Ubitrack.Spec
variable {K : Type*} [CommRing K]

/-- The homogeneous sandwich `q v q̄` written out. -/
def sandwich (q : Quat K) (v : Vec K 3) : Vec K 3 :=
  ![v 0 * (q.x * q.x + q.w * q.w - q.y * q.y - q.z * q.z) + v 1 * 2 * (q.x * q.y - q.w * q.z)
      + v 2 * 2 * (q.w * q.y + q.x * q.z),
    v 0 * 2 * (q.x * q.y + q.w * q.z) + v 1 * (q.y * q.y + q.w * q.w - q.x * q.x - q.z * q.z)
      + v 2 * 2 * (q.y * q.z - q.w * q.x),
    v 0 * 2 * (q.x * q.z - q.w * q.y) + v 1 * 2 * (q.w * q.x + q.y * q.z)
      + v 2 * (q.z * q.z + q.w * q.w - q.x * q.x - q.y * q.y)]

theorem rotate_eq_sandwich {q : Quat K} (h : UnitQ q) (v : Vec K 3) :
    rotate q v = sandwich q v := by
  unfold UnitQ at h
  ext i; fin_cases i
  · simp [rotate, sandwich]; linear_combination (v 0) * h
  · simp [rotate, sandwich]; linear_combination (v 1) * h
  · simp [rotate, sandwich]; linear_combination (v 2) * h

theorem sandwich_dot (q : Quat K) (u v : Vec K 3) :
    sandwich q u ⬝ᵥ sandwich q v = (q.x ^ 2 + q.y ^ 2 + q.z ^ 2 + q.w ^ 2) ^ 2 * (u ⬝ᵥ v) := by
  simp [sandwich, dotProduct, Fin.sum_univ_three]; ring

theorem sandwich_mul (p q : Quat K) (v : Vec K 3) :
    sandwich (mul p q) v = sandwich p (sandwich q v) := by
  ext i; fin_cases i <;> simp [sandwich, mul] <;> ring

theorem isUnit_mul {p q : Quat K} (hp : UnitQ p) (hq : UnitQ q) : UnitQ (mul p q) := by
  unfold UnitQ at *
  simp only [mul]
  calc _ = (p.x ^ 2 + p.y ^ 2 + p.z ^ 2 + p.w ^ 2) * (q.x ^ 2 + q.y ^ 2 + q.z ^ 2 + q.w ^ 2) := by ring
    _ = 1 := by rw [hp, hq, one_mul]

theorem isUnit_conj {q : Quat K} (hq : UnitQ q) : UnitQ (conj q) := by
  unfold UnitQ at *; simp only [conj]; rw [← hq]; ring

theorem isUnit_one : UnitQ (one : Quat K) := by simp [UnitQ, one]

theorem isUnit_neg {q : Quat K} (hq : UnitQ q) : UnitQ (neg q) := by
  unfold UnitQ at *; simp only [neg]; rw [← hq]; ring

theorem mul_assoc' (p q r : Quat K) : mul (mul p q) r = mul p (mul q r) := by
  ext <;> simp [mul] <;> ring

theorem one_mul' (q : Quat K) : mul one q = q := by ext <;> simp [mul, one]
theorem mul_one' (q : Quat K) : mul q one = q := by ext <;> simp [mul, one]

theorem conj_mul_self {q : Quat K} (h : UnitQ q) : mul (conj q) q = one := by
  unfold UnitQ at h
  ext <;> simp [mul, conj, one] <;> first | ring1 | linear_combination h

theorem mul_conj_self {q : Quat K} (h : UnitQ q) : mul q (conj q) = one := by
  unfold UnitQ at h
  ext <;> simp [mul, conj, one] <;> first | ring1 | linear_combination h

theorem rotate_mul {p q : Quat K} (hp : UnitQ p) (hq : UnitQ q) (v : Vec K 3) :
    rotate (mul p q) v = rotate p (rotate q v) := by
  rw [rotate_eq_sandwich (isUnit_mul hp hq), rotate_eq_sandwich hp, rotate_eq_sandwich hq,
    sandwich_mul]

theorem rotate_one (v : Vec K 3) : rotate one v = v := by
  ext i; fin_cases i <;> simp [rotate, one] <;> ring

theorem rotate_conj_rotate {q : Quat K} (h : UnitQ q) (v : Vec K 3) :
    rotate (conj q) (rotate q v) = v := by
  rw [← rotate_mul (isUnit_conj h) h, conj_mul_self h, rotate_one]

theorem rotate_rotate_conj {q : Quat K} (h : UnitQ q) (v : Vec K 3) :
    rotate q (rotate (conj q) v) = v := by
  rw [← rotate_mul h (isUnit_conj h), mul_conj_self h, rotate_one]

theorem rotate_add (q : Quat K) (u v : Vec K 3) : rotate q (u + v) = rotate q u + rotate q v := by
  ext i; fin_cases i <;> simp [rotate] <;> ring

theorem rotate_neg (q : Quat K) (v : Vec K 3) : rotate q (-v) = -rotate q v := by
  ext i; fin_cases i <;> simp [rotate] <;> ring

theorem rotate_sub (q : Quat K) (u v : Vec K 3) : rotate q (u - v) = rotate q u - rotate q v := by
  ext i; fin_cases i <;> simp [rotate] <;> ring

theorem rotate_smul (q : Quat K) (c : K) (v : Vec K 3) : rotate q (c • v) = c • rotate q v := by
  ext i; fin_cases i <;> simp [rotate] <;> ring

theorem rotate_zero (q : Quat K) : rotate q 0 = 0 := by
  ext i; fin_cases i <;> simp [rotate]

end Ubitrack.Quat

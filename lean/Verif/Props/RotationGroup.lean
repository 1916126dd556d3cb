import Verif.Props.RotationMatrix

/-! # C01, C03, C04: axis and angle of a rotation, and conversions of products -/

namespace Ubitrack
open Ubitrack.Spec Ubitrack.Quat
open scoped Matrix

private theorem moved (q : Quat ℝ) (hq : UnitQ q) (v : Vec ℝ 3) :
    lenSq (rotate q v - v) = 4 * lenSq (crossProduct ![q.x, q.y, q.z] v) := by
  unfold UnitQ at hq
  have hw : q.w ^ 2 = 1 - q.x ^ 2 - q.y ^ 2 - q.z ^ 2 := by linarith
  have e0 : (rotate q v - v) 0 = 2 * q.w * (q.y * v 2 - q.z * v 1) + 2 * (q.y * (q.x * v 1 - q.y * v 0) - q.z * (q.z * v 0 - q.x * v 2)) := by
    simp [rotate]; linear_combination (2 * v 0) * hw
  have e1 : (rotate q v - v) 1 = 2 * q.w * (q.z * v 0 - q.x * v 2) + 2 * (q.z * (q.y * v 2 - q.z * v 1) - q.x * (q.x * v 1 - q.y * v 0)) := by
    simp [rotate]; linear_combination (2 * v 1) * hw
  have e2 : (rotate q v - v) 2 = 2 * q.w * (q.x * v 1 - q.y * v 0) + 2 * (q.x * (q.z * v 0 - q.x * v 2) - q.y * (q.y * v 2 - q.z * v 1)) := by
    simp [rotate]; linear_combination (2 * v 2) * hw
  have c : crossProduct ![q.x, q.y, q.z] v = ![q.y * v 2 - q.z * v 1, q.z * v 0 - q.x * v 2, q.x * v 1 - q.y * v 0] := by
    ext i; fin_cases i <;> simp [crossProduct]
  rw [c]
  simp only [lenSq, e0, e1, e2, Matrix.cons_val_zero, Matrix.cons_val_one, Matrix.cons_val]
  have h : q.w ^ 2 + q.x ^ 2 + q.y ^ 2 + q.z ^ 2 = 1 := by linarith
  obtain ⟨x, y, z, w⟩ := q
  simp only at h ⊢
  linear_combination (4 * ((y * v 2 - z * v 1) ^ 2 + (z * v 0 - x * v 2) ^ 2 + (x * v 1 - y * v 0) ^ 2)) * h

/-- **C01** A rotation leaves exactly the vectors along its imaginary part where they are: how far any vector moves is twice the length of
its cross product with the imaginary part. -/
theorem C01_axis (q : Quat ℝ) (hq : UnitQ q) (v : Vec ℝ 3) :
    lenSq (rotate q v - v) = 4 * lenSq (crossProduct ![q.x, q.y, q.z] v) ∧
    (rotate q v = v ↔ crossProduct ![q.x, q.y, q.z] v = 0) := by
  refine ⟨moved q hq v, ?_⟩
  have z : ∀ u : Vec ℝ 3, lenSq u = 0 ↔ u = 0 := by
    intro u
    constructor
    · intro h
      unfold lenSq at h
      ext i
      fin_cases i <;> simp <;> nlinarith [sq_nonneg (u 0), sq_nonneg (u 1), sq_nonneg (u 2)]
    · rintro rfl; simp [lenSq]
  rw [← sub_eq_zero, ← z, ← z, moved q hq v]
  constructor <;> intro h <;> linarith

/-- **C01** Vectors perpendicular to the axis turn by the angle whose half has the real part as its cosine, in the positive sense about
the imaginary part. -/
theorem C01_angle (q : Quat ℝ) (hq : UnitQ q) (v : Vec ℝ 3) (hv : ![q.x, q.y, q.z] ⬝ᵥ v = 0) :
    rotate q v = Real.cos (2 * Real.arccos q.w) • v + (2 * q.w) • crossProduct ![q.x, q.y, q.z] v := by
  unfold UnitQ at hq
  have hb : -1 ≤ q.w ∧ q.w ≤ 1 := abs_le.mp (abs_le_of_sq_le_sq (by nlinarith [sq_nonneg q.x, sq_nonneg q.y, sq_nonneg q.z]) zero_le_one)
  rw [Real.cos_two_mul, Real.cos_arccos hb.1 hb.2]
  simp only [dotProduct, Fin.sum_univ_three, Matrix.cons_val_zero, Matrix.cons_val_one, Matrix.cons_val] at hv
  ext i
  fin_cases i <;> simp [rotate, crossProduct]
  · linear_combination (2 * q.x) * hv
  · linear_combination (2 * q.y) * hv
  · linear_combination (2 * q.z) * hv

/-- **C03** Conversion to matrices turns products into products and conjugates into transposes, and two unit quaternions have the same
matrix only if they are equal or opposite. -/
theorem C03_group (p q : Quat ℝ) (hp : UnitQ p) (hq : UnitQ q) :
    toMatrix (p.mul q) = toMatrix p * toMatrix q ∧ toMatrix p.conj = (toMatrix p)ᵀ ∧
    (toMatrix p = toMatrix q ↔ SameRotation p q) := by
  have hpq := (C02_rotation_group_action (K := ℝ)).2.2.2.1 p q hp hq
  refine ⟨?_, ?_, fun h => ?_, fun h => sameRotation_toMatrix h⟩
  · apply Matrix.ext_of_mulVec_single
    intro i
    rw [(C03_quaternion_to_matrix _ hpq.1).1, ← Matrix.mulVec_mulVec, (C03_quaternion_to_matrix _ hq).1, (C03_quaternion_to_matrix _ hp).1,
      (C02_rotation_group_action (K := ℝ)).1 p q hp hq]
  · ext i j; fin_cases i <;> fin_cases j <;> simp [toMatrix, Quat.conj, sub_eq_add_neg]
  · have h1 := C04_unique _ p hp rfl
    have h2 := C04_unique _ q hq h.symm
    rcases h1 with h1 | ⟨a, b, c, d⟩ <;> rcases h2 with h2 | ⟨a', b', c', d'⟩
    · exact Or.inl (h1.symm.trans h2)
    · rw [h1] at a' b' c' d'; exact Or.inr ⟨a', b', c', d'⟩
    · rw [h2] at a b c d; exact Or.inr ⟨by linarith, by linarith, by linarith, by linarith⟩
    · exact Or.inl (Quat.ext (by linarith) (by linarith) (by linarith) (by linarith))

/-- **C04** Converting the product of two rotation matrices gives the product of the converted quaternions up to sign, and converting the
transpose gives the conjugate up to sign. -/
theorem C04_group (A B : Mat ℝ 3 3) (hA : Aᵀ * A = 1) (dA : A.det = 1) (hB : Bᵀ * B = 1) (dB : B.det = 1) :
    SameRotation (ofMatrix (A * B)) ((ofMatrix A).mul (ofMatrix B)) ∧ SameRotation (ofMatrix Aᵀ) (ofMatrix A).conj := by
  obtain ⟨uA, mA, -⟩ := C04_every_rotation_matrix A hA dA
  obtain ⟨uB, mB, -⟩ := C04_every_rotation_matrix B hB dB
  obtain ⟨u, u'⟩ := (C02_rotation_group_action (K := ℝ)).2.2.2.1 _ _ uA uB
  obtain ⟨g1, g2, -⟩ := C03_group _ _ uA uB
  exact ⟨C04_unique _ _ u (by rw [g1, mA, mB]), C04_unique _ _ u' (by rw [g2, mA])⟩

/-- A third of a turn about the diagonal and a half turn about the x axis. -/
example : UnitQ (⟨1 / 2, 1 / 2, 1 / 2, 1 / 2⟩ : Quat ℝ) ∧ UnitQ (⟨1, 0, 0, 0⟩ : Quat ℝ) ∧
    (![1 / 2, 1 / 2, 1 / 2] : Vec ℝ 3) ⬝ᵥ ![1, -1, 0] = 0 := by
  refine ⟨by simp [UnitQ]; norm_num, by simp [UnitQ], by simp [dotProduct, Fin.sum_univ_three]⟩

end Ubitrack

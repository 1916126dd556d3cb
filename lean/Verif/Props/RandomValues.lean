import Verif.Spec.RandomValues
import Verif.Props.SphereMeasure
import Verif.Props.Rotation
import Mathlib.MeasureTheory.Constructions.BorelSpace.Order
import Mathlib.LinearAlgebra.Determinant
import Mathlib.Analysis.SpecialFunctions.Complex.Arg

/-! # C88: random values -/

namespace Ubitrack.RandomValues

open MeasureTheory Spec
open scoped Matrix ENNReal

/-! ### Rotations -/

theorem normSq_quaternionOf {x : ℝ} (hx0 : 0 ≤ x) (hx1 : x ≤ 1) (y z : ℝ) : (quaternionOf x y z).normSq = 1 := by
  unfold quaternionOf Quat.normSq
  simp only
  have h1 := Real.sq_sqrt hx0
  have h2 := Real.sq_sqrt (sub_nonneg.2 hx1)
  have h3 := Real.sin_sq_add_cos_sq (2 * z * Real.pi)
  have h4 := Real.sin_sq_add_cos_sq (2 * y * Real.pi)
  calc _ = √x ^ 2 * (Real.sin (2 * z * Real.pi) ^ 2 + Real.cos (2 * z * Real.pi) ^ 2) +
        √(1 - x) ^ 2 * (Real.sin (2 * y * Real.pi) ^ 2 + Real.cos (2 * y * Real.pi) ^ 2) := by ring
    _ = 1 := by rw [h1, h2, h3, h4]; ring

/-- **C88** A random rotation is made of three numbers of the generator and is a unit quaternion. -/
theorem C88_unit (uniform : ℕ → ℝ) (hu : ∀ i, 0 ≤ uniform i ∧ uniform i < 1) (k : ℕ) :
    ∃ q, uniformQuaternion uniform k = some (q, k + 3) ∧ q.normSq = 1 ∧ q = quaternionOf (uniform k) (uniform (k + 1)) (uniform (k + 2)) := by
  refine ⟨quaternionOf (uniform k) (uniform (k + 1)) (uniform (k + 2)), ?_, normSq_quaternionOf (hu k).1 (hu k).2.le _ _, rfl⟩
  simp [uniformQuaternion, distributeUniform]

theorem exists_turn (a b : ℝ) : ∃ y, 0 ≤ y ∧ y < 1 ∧ a = √(a ^ 2 + b ^ 2) * Real.sin (2 * y * Real.pi) ∧ b = √(a ^ 2 + b ^ 2) * Real.cos (2 * y * Real.pi) := by
  have hpi := Real.pi_pos
  have hn : ‖(⟨b, a⟩ : ℂ)‖ = √(a ^ 2 + b ^ 2) := by
    rw [Complex.norm_eq_sqrt_sq_add_sq]
    congr 1
    simp only
    ring
  have hc := Complex.norm_mul_cos_arg (⟨b, a⟩ : ℂ)
  have hs := Complex.norm_mul_sin_arg (⟨b, a⟩ : ℂ)
  rw [hn] at hc hs
  have h1 := Complex.neg_pi_lt_arg (⟨b, a⟩ : ℂ)
  have h2 := Complex.arg_le_pi (⟨b, a⟩ : ℂ)
  generalize Complex.arg (⟨b, a⟩ : ℂ) = t at *
  by_cases ht : 0 ≤ t
  · refine ⟨t / (2 * Real.pi), by positivity, ?_, ?_, ?_⟩
    · rw [div_lt_one (by positivity)]
      linarith
    · rw [show 2 * (t / (2 * Real.pi)) * Real.pi = t by field_simp, hs]
    · rw [show 2 * (t / (2 * Real.pi)) * Real.pi = t by field_simp, hc]
  · refine ⟨t / (2 * Real.pi) + 1, ?_, ?_, ?_, ?_⟩
    · rw [div_add_one (by positivity)]
      apply div_nonneg <;> linarith
    · have : t / (2 * Real.pi) < 0 := div_neg_of_neg_of_pos (not_le.1 ht) (by positivity)
      linarith
    · rw [show 2 * (t / (2 * Real.pi) + 1) * Real.pi = t + 2 * Real.pi by field_simp, Real.sin_add_two_pi, hs]
    · rw [show 2 * (t / (2 * Real.pi) + 1) * Real.pi = t + 2 * Real.pi by field_simp, Real.cos_add_two_pi, hc]

/-- **C88** No unit quaternion is left out: each comes from numbers in the range (the first may have to be one). -/
theorem C88_every (q : Quat ℝ) (hq : q.normSq = 1) : ∃ x y z, 0 ≤ x ∧ x ≤ 1 ∧ 0 ≤ y ∧ y < 1 ∧ 0 ≤ z ∧ z < 1 ∧ quaternionOf x y z = q := by
  obtain ⟨y, hy0, hy1, h1, h2⟩ := exists_turn q.x q.y
  obtain ⟨z, hz0, hz1, h3, h4⟩ := exists_turn q.z q.w
  unfold Quat.normSq at hq
  have hx : 1 - (q.z ^ 2 + q.w ^ 2) = q.x ^ 2 + q.y ^ 2 := by nlinarith
  refine ⟨q.z ^ 2 + q.w ^ 2, y, z, by positivity, by nlinarith [sq_nonneg q.x, sq_nonneg q.y], hy0, hy1, hz0, hz1, ?_⟩
  unfold quaternionOf
  rw [hx]
  ext
  · exact h1.symm
  · exact h2.symm
  · exact h3.symm
  · exact h4.symm

/-- The coordinates in the order of `SphereMeasure`. -/
def coordinates : (Fin 4 → ℝ) ≃ₗ[ℝ] SphereMeasure.Space where
  toFun v := ((v 1, v 0), (v 3, v 2))
  invFun p := ![p.1.2, p.1.1, p.2.2, p.2.1]
  map_add' _ _ := rfl
  map_smul' _ _ := rfl
  left_inv v := by
    funext i
    fin_cases i <;> rfl
  right_inv _ := rfl

theorem coordinates_quaternionOf (x y z : ℝ) : coordinates (quaternionOf x y z).toVector = SphereMeasure.point x y z := rfl

theorem measurable_coordinates_symm : Measurable coordinates.symm :=
  (coordinates.symm : SphereMeasure.Space →ₗ[ℝ] (Fin 4 → ℝ)).continuous_of_finiteDimensional.measurable

/-- The set of the event in the other coordinates. -/
def eventSet (event : Quat ℝ → Prop) : Set SphereMeasure.Space := {p | event (Quat.fromVector (coordinates.symm p))}

theorem measurableSet_eventSet {event : Quat ℝ → Prop} (h : Spec.Measurable event) : MeasurableSet (eventSet event) :=
  measurable_coordinates_symm h

theorem restrict_Ico : (volume : Measure ℝ).restrict (Set.Ico 0 1) = volume.restrict (Set.Ioo 0 1) := Measure.restrict_congr_set Ioo_ae_eq_Ico.symm

theorem measurable_point : Measurable fun t : ℝ × ℝ × ℝ => SphereMeasure.point t.1 t.2.1 t.2.2 := by
  unfold SphereMeasure.point
  fun_prop

theorem probability_eq {event : Quat ℝ → Prop} (h : Spec.Measurable event) : probability event = SphereMeasure.fraction (eventSet event) := by
  have hB := measurableSet_eventSet h
  have hi := SphereMeasure.measurable_ind hB
  have hcube : MeasurableSet cube := measurableSet_Ico.prod (measurableSet_Ico.prod measurableSet_Ico)
  have hE : MeasurableSet {t : ℝ × ℝ × ℝ | SphereMeasure.point t.1 t.2.1 t.2.2 ∈ eventSet event} := measurable_point hB
  have hset : {t : ℝ × ℝ × ℝ | t ∈ cube ∧ event (quaternionOf t.1 t.2.1 t.2.2)} =
      {t : ℝ × ℝ × ℝ | SphereMeasure.point t.1 t.2.1 t.2.2 ∈ eventSet event} ∩ cube := by
    ext t
    constructor
    · exact fun h => ⟨h.2, h.1⟩
    · exact fun h => ⟨h.2, h.1⟩
  unfold probability SphereMeasure.fraction
  rw [hset, ← Measure.restrict_apply hE, ← lintegral_indicator_one hE]
  change ∫⁻ t : ℝ × ℝ × ℝ, SphereMeasure.ind (eventSet event) (SphereMeasure.point t.1 t.2.1 t.2.2)
    ∂((volume : Measure ℝ).prod ((volume : Measure ℝ).prod (volume : Measure ℝ))).restrict (Set.Ico 0 1 ×ˢ Set.Ico 0 1 ×ˢ Set.Ico 0 1) = _
  have hm : Measurable fun t : ℝ × ℝ × ℝ => SphereMeasure.ind (eventSet event) (SphereMeasure.point t.1 t.2.1 t.2.2) := hi.comp measurable_point
  rw [← Measure.prod_restrict, ← Measure.prod_restrict, restrict_Ico, lintegral_prod_symm _ hm.aemeasurable, lintegral_prod]
  · refine Measurable.aemeasurable ?_
    have : Measurable fun t : (ℝ × ℝ) × ℝ => SphereMeasure.ind (eventSet event) (SphereMeasure.point t.2 t.1.1 t.1.2) := by
      refine hi.comp ?_
      unfold SphereMeasure.point
      fun_prop
    exact this.lintegral_prod_right'

/-- **C88** Random rotations are uniformly distributed: an orthogonal map of the quaternions (as vectors) does not change probabilities. -/
theorem C88_uniform (A : Mat ℝ 4 4) (hA : Aᵀ * A = 1) (event : Quat ℝ → Prop) (h : Spec.Measurable event) :
    probability (fun q => event (Quat.fromVector (A *ᵥ q.toVector))) = probability event := by
  have hcont : Measurable fun v : Fin 4 → ℝ => A *ᵥ v := (Matrix.mulVecLin A).continuous_of_finiteDimensional.measurable
  have hm : Spec.Measurable fun q => event (Quat.fromVector (A *ᵥ q.toVector)) := by
    have hset : {v : Vec ℝ 4 | event (Quat.fromVector (A *ᵥ (⟨v 0, v 1, v 2, v 3⟩ : Quat ℝ).toVector))} = (fun v : Fin 4 → ℝ => A *ᵥ v) ⁻¹' {v | event ⟨v 0, v 1, v 2, v 3⟩} := by
      ext v
      have : (⟨v 0, v 1, v 2, v 3⟩ : Quat ℝ).toVector = v := by
        funext i
        fin_cases i <;> rfl
      change event (Quat.fromVector (A *ᵥ (⟨v 0, v 1, v 2, v 3⟩ : Quat ℝ).toVector)) ↔ event (Quat.fromVector (A *ᵥ v))
      rw [this]
    unfold Spec.Measurable
    rw [hset]
    exact hcont h
  let L : SphereMeasure.Space →ₗ[ℝ] SphereMeasure.Space :=
    (coordinates : (Fin 4 → ℝ) →ₗ[ℝ] SphereMeasure.Space) ∘ₗ Matrix.toLin' A ∘ₗ (coordinates.symm : SphereMeasure.Space →ₗ[ℝ] (Fin 4 → ℝ))
  rw [probability_eq h, probability_eq hm, ← SphereMeasure.fraction_preimage (measurableSet_eventSet h) L]
  · rfl
  · intro p
    have hdot : ∀ p, SphereMeasure.lengthSq p = coordinates.symm p ⬝ᵥ coordinates.symm p := by
      intro p
      simp only [dotProduct, Fin.sum_univ_four]
      change p.1.1 ^ 2 + p.1.2 ^ 2 + (p.2.1 ^ 2 + p.2.2 ^ 2) = p.1.2 * p.1.2 + p.1.1 * p.1.1 + p.2.2 * p.2.2 + p.2.1 * p.2.1
      ring
    rw [hdot, hdot]
    change coordinates.symm (coordinates (Matrix.toLin' A (coordinates.symm p))) ⬝ᵥ coordinates.symm (coordinates (Matrix.toLin' A (coordinates.symm p))) = _
    rw [LinearEquiv.symm_apply_apply, Matrix.toLin'_apply, Matrix.dotProduct_mulVec, Matrix.vecMul_mulVec, hA, Matrix.vecMul_one]
  · have hdet : LinearMap.det L = A.det := by
      change LinearMap.det ((coordinates : (Fin 4 → ℝ) →ₗ[ℝ] SphereMeasure.Space) ∘ₗ Matrix.toLin' A ∘ₗ (coordinates.symm : SphereMeasure.Space →ₗ[ℝ] (Fin 4 → ℝ))) = _
      rw [LinearMap.det_conj, LinearMap.det_toLin']
    have hsq : A.det * A.det = 1 := by
      have := congrArg Matrix.det hA
      rwa [Matrix.det_mul, Matrix.det_transpose, Matrix.det_one] at this
    rw [hdet]
    rcases mul_self_eq_one_iff.1 hsq with h | h <;> rw [h] <;> simp

/-- Multiplication from the left as a matrix. -/
def leftMatrix (p : Quat ℝ) : Mat ℝ 4 4 :=
  !![p.w, -p.z, p.y, p.x; p.z, p.w, -p.x, p.y; -p.y, p.x, p.w, p.z; -p.x, -p.y, -p.z, p.w]

/-- Multiplication from the right as a matrix. -/
def rightMatrix (p : Quat ℝ) : Mat ℝ 4 4 :=
  !![p.w, p.z, -p.y, p.x; -p.z, p.w, p.x, p.y; p.y, -p.x, p.w, p.z; -p.x, -p.y, -p.z, p.w]

theorem leftMatrix_mulVec (p q : Quat ℝ) : Quat.fromVector (leftMatrix p *ᵥ q.toVector) = p.mul q := by
  ext <;> simp [leftMatrix, Quat.fromVector, Quat.toVector, Quat.mul, Matrix.mulVec, dotProduct, Fin.sum_univ_four] <;> ring

theorem rightMatrix_mulVec (p q : Quat ℝ) : Quat.fromVector (rightMatrix p *ᵥ q.toVector) = q.mul p := by
  ext <;> simp [rightMatrix, Quat.fromVector, Quat.toVector, Quat.mul, Matrix.mulVec, dotProduct, Fin.sum_univ_four] <;> ring

theorem leftMatrix_orthogonal (p : Quat ℝ) (hp : p.normSq = 1) : (leftMatrix p)ᵀ * leftMatrix p = 1 := by
  unfold Quat.normSq at hp
  ext i j
  fin_cases i <;> fin_cases j <;> simp [leftMatrix, Matrix.mul_apply, Fin.sum_univ_four] <;> linarith

theorem rightMatrix_orthogonal (p : Quat ℝ) (hp : p.normSq = 1) : (rightMatrix p)ᵀ * rightMatrix p = 1 := by
  unfold Quat.normSq at hp
  ext i j
  fin_cases i <;> fin_cases j <;> simp [rightMatrix, Matrix.mul_apply, Fin.sum_univ_four] <;> linarith

/-- **C88** A fixed rotation before or after a random rotation does not change probabilities: no rotation is preferred. -/
theorem C88_invariant (p : Quat ℝ) (hp : p.normSq = 1) (event : Quat ℝ → Prop) (h : Spec.Measurable event) :
    probability (fun q => event (p.mul q)) = probability event ∧ probability (fun q => event (q.mul p)) = probability event := by
  constructor
  · rw [← C88_uniform _ (leftMatrix_orthogonal p hp) event h]
    simp only [leftMatrix_mulVec]
  · rw [← C88_uniform _ (rightMatrix_orthogonal p hp) event h]
    simp only [rightMatrix_mulVec]

/-- **C88** The probability of the certain event is one. -/
theorem C88_certain : probability (fun _ => True) = 1 := by
  unfold probability
  simp only [and_true]
  change ((volume : Measure ℝ).prod ((volume : Measure ℝ).prod (volume : Measure ℝ))) (Set.Ico 0 1 ×ˢ Set.Ico 0 1 ×ˢ Set.Ico 0 1) = 1
  simp [Measure.prod_prod]

theorem probability_congr {e e' : Quat ℝ → Prop} (h : ∀ q : Quat ℝ, q.normSq = 1 → (e q ↔ e' q)) : probability e = probability e' := by
  unfold probability
  congr 1
  ext t
  constructor
  · rintro ⟨h1, h2⟩
    exact ⟨h1, (h _ (normSq_quaternionOf h1.1.1 h1.1.2.le _ _)).1 h2⟩
  · rintro ⟨h1, h2⟩
    exact ⟨h1, (h _ (normSq_quaternionOf h1.1.1 h1.1.2.le _ _)).2 h2⟩

theorem unitQ_iff (q : Quat ℝ) : q.normSq = 1 ↔ Spec.UnitQ q := by
  unfold Quat.normSq Spec.UnitQ
  constructor <;> intro h <;> linarith

/-- **C88** The direction into which a random rotation turns a vector is uniformly distributed: turning it further does not change
probabilities. -/
theorem C88_direction (p : Quat ℝ) (hp : p.normSq = 1) (v : Vec ℝ 3) (S : Set (Vec ℝ 3)) (hS : MeasurableSet S) :
    probability (fun q => p.rotate (q.rotate v) ∈ S) = probability fun q => q.rotate v ∈ S := by
  have hm : Spec.Measurable fun q => q.rotate v ∈ S := by
    have : Measurable fun u : Vec ℝ 4 => (⟨u 0, u 1, u 2, u 3⟩ : Quat ℝ).rotate v := by
      refine measurable_pi_lambda _ fun i => ?_
      fin_cases i <;> simp only [Quat.rotate] <;> simp <;> fun_prop
    exact this hS
  rw [← (C88_invariant p hp _ hm).1]
  refine probability_congr fun q hq => ?_
  rw [C02_rotation_group_action.1 p q ((unitQ_iff p).1 hp) ((unitQ_iff q).1 hq)]

/-! ### Vectors and matrices -/

/-- What the loop does when every draw succeeds. -/
theorem fill_eq {ι : Type} [DecidableEq ι] (draw : ι → ℝ → Option ℝ) (f : ι → ℝ → ℝ) (h : ∀ i u, draw i u = some (f i u)) (numbers : ℕ → ℝ) :
    ∀ (l : List ι), l.Nodup → ∀ k v, ∃ w, fill draw numbers l k v = some (w, k + l.length) ∧
      (∀ j (hj : j < l.length), w l[j] = f l[j] (numbers (k + j))) ∧ ∀ i, i ∉ l → w i = v i := by
  intro l
  induction l with
  | nil => exact fun _ k v => ⟨v, rfl, fun j hj => absurd hj (by simp), fun _ _ => rfl⟩
  | cons i rest ih =>
    intro hn k v
    rw [List.nodup_cons] at hn
    obtain ⟨w, h1, h2, h3⟩ := ih hn.2 (k + 1) (Function.update v i (f i (numbers k)))
    refine ⟨w, ?_, ?_, ?_⟩
    · rw [fill, h]
      change fill draw numbers rest (k + 1) (Function.update v i (f i (numbers k))) = _
      rw [h1, List.length_cons, Nat.add_assoc, Nat.add_comm 1]
    · intro j hj
      cases j with
      | zero =>
        simp only [List.getElem_cons_zero]
        rw [h3 i hn.1, Function.update_self, Nat.add_zero]
      | succ j =>
        simp only [List.getElem_cons_succ]
        rw [h2 j (by simpa using hj), Nat.add_assoc, Nat.add_comm 1]
    · intro a ha
      rw [List.mem_cons, not_or] at ha
      rw [h3 a ha.2, Function.update_of_ne ha.1]

theorem between {a b u : ℝ} (hab : a ≤ b) (h0 : 0 ≤ u) (h1 : u < 1) : a ≤ u * (b - a) + a ∧ u * (b - a) + a ≤ b ∧ (a < b → u * (b - a) + a < b) := by
  refine ⟨?_, ?_, fun h => ?_⟩ <;> nlinarith

/-- **C88** A random vector has one number of the generator in each component, in order, scaled to the limits of the component; all components
are within the limits. -/
theorem C88_vector {n : ℕ} (lower upper : Vec ℝ n) (h : ∀ i, lower i ≤ upper i) (uniform : ℕ → ℝ) (hu : ∀ i, 0 ≤ uniform i ∧ uniform i < 1) (k : ℕ) :
    ∃ v, uniformVector (Limits.ofVectors lower upper) uniform k = some (v, k + n) ∧
      ∀ i : Fin n, v i = lower i + uniform (k + i) * (upper i - lower i) ∧ lower i ≤ v i ∧ v i ≤ upper i ∧ (lower i < upper i → v i < upper i) := by
  obtain ⟨w, h1, h2, -⟩ := fill_eq (fun i u => distributeUniform (lower i) (upper i) u) (fun i u => u * (upper i - lower i) + lower i)
    (fun i u => by simp [distributeUniform, h i]) uniform (List.finRange n) (List.nodup_finRange n) k 0
  rw [List.length_finRange] at h1
  refine ⟨w, h1, fun i => ?_⟩
  have := h2 i.val (by simp)
  rw [List.getElem_finRange] at this
  have hw : w i = uniform (k + i) * (upper i - lower i) + lower i := this
  have hb := between (h i) (hu (k + i)).1 (hu (k + i)).2
  rw [hw]
  exact ⟨by ring, hb⟩

/-- **C88** With the same limits for all components the order of the two limits does not matter. -/
theorem C88_vector_scalar (n : ℕ) (a b : ℝ) (uniform : ℕ → ℝ) (hu : ∀ i, 0 ≤ uniform i ∧ uniform i < 1) (k : ℕ) :
    (∃ v, uniformVector (Limits.ofScalars n a b) uniform k = some (v, k + n) ∧ ∀ i, min a b ≤ v i ∧ v i ≤ max a b) ∧
    uniformVector (Limits.ofScalars n a b) uniform k = uniformVector (Limits.ofScalars n b a) uniform k := by
  constructor
  · obtain ⟨v, h1, h2⟩ := C88_vector (fun _ : Fin n => min a b) (fun _ => max a b) (fun _ => min_le_max) uniform hu k
    exact ⟨v, h1, fun i => ⟨(h2 i).2.1, (h2 i).2.2.1⟩⟩
  · unfold Limits.ofScalars
    rw [min_comm, max_comm]

theorem getElem?_flatMap_const {α β : Type} (f : α → List β) (n : ℕ) (hf : ∀ a, (f a).length = n) :
    ∀ (l : List α) (i j : ℕ), j < n → (l.flatMap f)[i * n + j]? = (l[i]?).bind fun a => (f a)[j]? := by
  intro l
  induction l with
  | nil => intro i j _; simp
  | cons a l ih =>
    intro i j hj
    rw [List.flatMap_cons]
    cases i with
    | zero =>
      rw [List.getElem?_append_left (by rw [hf]; omega)]
      simp
    | succ i =>
      have : (i + 1) * n + j - n = i * n + j := by
        rw [Nat.add_mul, Nat.one_mul]
        omega
      rw [List.getElem?_append_right (by rw [hf, Nat.add_mul]; omega), hf, this, ih i j hj]
      simp

/-- **C88** A random matrix has elements within the limits, in either order, from as many numbers as it has elements, row by row. -/
theorem C88_matrix (m n : ℕ) (a b : ℝ) (uniform : ℕ → ℝ) (hu : ∀ i, 0 ≤ uniform i ∧ uniform i < 1) (k : ℕ) :
    ∃ M, uniformMatrix m n a b uniform k = some (M, k + m * n) ∧ ∀ (i : Fin m) (j : Fin n),
      M (i, j) = min a b + uniform (k + (i * n + j)) * (max a b - min a b) ∧ min a b ≤ M (i, j) ∧ M (i, j) ≤ max a b := by
  have hlist : ((List.finRange m).flatMap fun i => (List.finRange n).map fun j => (i, j)) = (List.finRange m) ×ˢ (List.finRange n) := rfl
  have hnd : ((List.finRange m).flatMap fun i => (List.finRange n).map fun j => (i, j)).Nodup := by
    rw [hlist]
    exact (List.nodup_finRange m).product (List.nodup_finRange n)
  obtain ⟨w, h1, h2, -⟩ := fill_eq (fun _ u => distributeUniform (min a b) (max a b) u) (fun _ u => u * (max a b - min a b) + min a b)
    (fun i u => by simp [distributeUniform]) uniform _ hnd k 0
  have hlen : ((List.finRange m).flatMap fun i => (List.finRange n).map fun j => (i, j)).length = m * n := by
    rw [hlist, List.length_product, List.length_finRange, List.length_finRange]
  rw [hlen] at h1
  refine ⟨w, h1, fun i j => ?_⟩
  have hij : i.val * n + j.val < m * n := by
    have h3 : (i.val + 1) * n ≤ m * n := Nat.mul_le_mul_right n i.isLt
    have h4 := j.isLt
    nlinarith
  have hget : ((List.finRange m).flatMap fun i => (List.finRange n).map fun j => (i, j))[i.val * n + j.val]'(by rw [hlen]; exact hij) = (i, j) := by
    have h5 := getElem?_flatMap_const (fun i : Fin m => (List.finRange n).map fun j => (i, j)) n (fun _ => by simp) (List.finRange m) i.val j.val j.isLt
    have h6 : ((List.finRange m)[i.val]?).bind (fun i => ((List.finRange n).map fun j => (i, j))[j.val]?) = some (i, j) := by
      simp
    rw [h6] at h5
    exact (List.getElem_eq_iff _).2 h5
  have := h2 (i.val * n + j.val) (by rw [hlen]; exact hij)
  rw [hget] at this
  have hb := between (min_le_max (a := a) (b := b)) (hu (k + (i.val * n + j.val))).1 (hu (k + (i.val * n + j.val))).2
  rw [this]
  exact ⟨by ring, hb.1, hb.2.1⟩

/-- **C88** Refuted: limits in either order for each component. A component with swapped limits violates the precondition of the generator
(`C88_vector_scalar` orders them). -/
theorem C88_vector_order_refuted {n : ℕ} (lower upper : Vec ℝ n) (i : Fin n) (h : upper i < lower i) (uniform : ℕ → ℝ) (k : ℕ) :
    uniformVector (Limits.ofVectors lower upper) uniform k = none := by
  have key : ∀ (l : List (Fin n)), i ∈ l → ∀ k v, fill (fun i u => distributeUniform (lower i) (upper i) u) uniform l k v = none := by
    intro l
    induction l with
    | nil => exact fun hl => absurd hl List.not_mem_nil
    | cons a rest ih =>
      intro hl k v
      rw [fill]
      by_cases ha : lower a ≤ upper a
      · have hai : i ≠ a := by
          rintro rfl
          linarith
        have hr : i ∈ rest := by
          rcases List.mem_cons.1 hl with h | h
          · exact absurd h hai
          · exact h
        simp only [distributeUniform, if_pos ha]
        exact ih hr _ _
      · simp [distributeUniform, ha]
  exact key _ (List.mem_finRange i) k 0

/-- **C88** Normally distributed vectors: each component is mean plus deviation times a number of the generator. -/
theorem C88_normal {n : ℕ} (mu sigma : Vec ℝ n) (h : ∀ i, 0 ≤ sigma i) (normal : ℕ → ℝ) (k : ℕ) :
    ∃ v, normalVector (Normal.ofVectors mu sigma) normal k = some (v, k + n) ∧ ∀ i : Fin n, v i = mu i + sigma i * normal (k + i) := by
  obtain ⟨w, h1, h2, -⟩ := fill_eq (fun i g => distributeNormal (mu i) (sigma i) g) (fun i g => g * sigma i + mu i)
    (fun i u => by simp [distributeNormal, h i]) normal (List.finRange n) (List.nodup_finRange n) k 0
  rw [List.length_finRange] at h1
  refine ⟨w, h1, fun i => ?_⟩
  have := h2 i.val (by simp)
  rw [List.getElem_finRange] at this
  have hw : w i = normal (k + i) * sigma i + mu i := this
  rw [hw]
  ring

/-- **C88** Refuted: vectors with a given covariance. The covariance is not used and members that are not initialised are read. -/
theorem C88_covariance_refuted {n : ℕ} (mu : Vec ℝ n) (sigma : Mat ℝ n n) (normal : ℕ → ℝ) (k : ℕ) :
    normalVector (Normal.ofCovariance mu sigma) normal k = none := rfl

/-! ### Several source files -/

theorem drawAll_filter (numbers : ℕ → ℝ) (file : ℕ) : ∀ (files : List ℕ) (state : ℕ → ℕ),
    ((drawAll numbers files state).filter fun p => p.1 = file).map Prod.snd = (List.range' (state file) (files.count file)).map numbers := by
  intro files
  induction files with
  | nil => exact fun _ => rfl
  | cons f rest ih =>
    intro state
    rw [drawAll, List.filter_cons]
    by_cases h : f = file
    · subst h
      simp only [decide_true, if_true, List.map_cons, ih, List.count_cons_self, List.range'_succ, drawIn, Function.update_self]
    · have hne : (decide (f = file)) = false := by simpa using h
      simp only [hne, Bool.false_eq_true, if_false, ih, drawIn]
      rw [Function.update_of_ne (Ne.symm h), List.count_cons_of_ne h]

/-- **C88** Refuted: numbers drawn in different places of a program are independent. In every program, the numbers drawn in one source file are
the beginning of one sequence, the same for all source files: if two source files draw equally often, they get the same numbers, in any
interleaving. -/
theorem C88_independent_refuted (numbers : ℕ → ℝ) (files : List ℕ) (a b : ℕ) (h : files.count a = files.count b) :
    ((drawAll numbers files fun _ => 0).filter fun p => p.1 = a).map Prod.snd = ((drawAll numbers files fun _ => 0).filter fun p => p.1 = b).map Prod.snd := by
  rw [drawAll_filter, drawAll_filter, h]

/-- **C88** Within a source file the numbers of the generator are used one after the other, whatever other source files do. -/
theorem C88_sequence (numbers : ℕ → ℝ) (files : List ℕ) (a : ℕ) :
    ((drawAll numbers files fun _ => 0).filter fun p => p.1 = a).map Prod.snd = (List.range (files.count a)).map numbers := by
  rw [drawAll_filter, List.range_eq_range']

/-! ### The hypotheses are met -/

example : (∀ i : ℕ, (0 : ℝ) ≤ 1 / 4 ∧ (1 / 4 : ℝ) < 1) ∧ (⟨0, 0, 3 / 5, 4 / 5⟩ : Quat ℝ).normSq = 1 ∧ (leftMatrix ⟨0, 0, 3 / 5, 4 / 5⟩)ᵀ * leftMatrix ⟨0, 0, 3 / 5, 4 / 5⟩ = 1 := by
  refine ⟨fun _ => by norm_num, by norm_num [Quat.normSq], leftMatrix_orthogonal _ (by norm_num [Quat.normSq])⟩

/-- The event that the rotation angle is small is measurable. -/
example : Spec.Measurable fun q => 9 / 10 < q.w := by
  unfold Spec.Measurable
  exact measurableSet_lt measurable_const (measurable_pi_apply 3)

example : quaternionOf (1 / 4) 0 (1 / 2) = ⟨0, √(3 / 4), 0, -√(1 / 4)⟩ := by
  unfold quaternionOf
  ext <;> norm_num

example : [0, 1, 1, 0, 2].count 0 = [0, 1, 1, 0, 2].count 1 ∧ (∀ i : Fin 2, (![0, 1] : Vec ℝ 2) i ≤ ![1, 1] i) ∧ (![0, 1] : Vec ℝ 2) 0 < ![1, 1] 0 := by
  refine ⟨by decide, fun i => ?_, by norm_num⟩
  fin_cases i <;> norm_num

end Ubitrack.RandomValues

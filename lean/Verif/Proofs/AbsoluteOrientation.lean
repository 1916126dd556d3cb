import Verif.Model.AbsoluteOrientation
import Verif.Spec.Alignment
import Verif.Spec.Solver
import Verif.Proofs.SO3
import Mathlib.Analysis.Matrix.Spectrum

/-!
# Helper lemmas for absolute orientation
-/

namespace Ubitrack.AbsoluteOrientation
open Ubitrack.Spec Ubitrack.Quat
open scoped Matrix

theorem foldl_add_eq (l : List (Vec ℝ 3)) (a : Vec ℝ 3) :
    l.foldl (fun acc p => acc + p) a = a + l.sum := by
  induction l generalizing a with
  | nil => simp
  | cons x xs ih => rw [List.foldl_cons, ih, List.sum_cons, add_assoc]

theorem centroid_eq (l : List (Vec ℝ 3)) : centroid l l.length = mean l := by
  ext i; simp [centroid, mean, foldl_add_eq]

/-- The quaternion as the 4-vector (w, x, y, z) in which N is written. -/
def vec4 (q : Quat ℝ) : Vec ℝ 4 := ![q.w, q.x, q.y, q.z]

/-- The correlation a rotation matrix achieves on one centred pair. -/
def corr (R : Mat ℝ 3 3) (u v : Vec ℝ 3) : ℝ := u ⬝ᵥ (R *ᵥ v)

theorem horn_add (A B : Mat ℝ 3 3) : hornMatrix (A + B) = hornMatrix A + hornMatrix B := by
  ext i j; fin_cases i <;> fin_cases j <;> simp [hornMatrix] <;> ring

theorem horn_zero : hornMatrix 0 = 0 := by
  ext i j; fin_cases i <;> fin_cases j <;> simp [hornMatrix]

theorem horn_symm (M : Mat ℝ 3 3) : (hornMatrix M).IsSymm := by
  ext i j; fin_cases i <;> fin_cases j <;> simp [hornMatrix]

theorem horn_outer (q : Quat ℝ) (hq : UnitQ q) (u v : Vec ℝ 3) :
    vec4 q ⬝ᵥ (hornMatrix (Matrix.of fun i j => v i * u j) *ᵥ vec4 q) = corr (toMatrix q) u v := by
  unfold UnitQ at hq
  simp [vec4, hornMatrix, corr, toMatrix, Matrix.mulVec, dotProduct, Fin.sum_univ_three,
    Fin.sum_univ_four]
  linear_combination (u 0 * v 0 + u 1 * v 1 + u 2 * v 2) * hq

theorem crossSum_eq (left right : List (Vec ℝ 3)) (a b : Vec ℝ 3) :
    crossSum left right a b =
      ((left.zip right).map fun p =>
        (Matrix.of fun i j => (p.2 - b) i * (p.1 - a) j : Mat ℝ 3 3)).sum := by
  have : ∀ (L : List (Vec ℝ 3 × Vec ℝ 3)) (M : Mat ℝ 3 3),
      L.foldl (fun M p =>
        let vec1 := p.1 - a
        let vec2 := p.2 - b
        M + Matrix.of fun i j => vec2 i * vec1 j) M =
      M + (L.map fun p => (Matrix.of fun i j => (p.2 - b) i * (p.1 - a) j : Mat ℝ 3 3)).sum := by
    intro L
    induction L with
    | nil => simp
    | cons x xs ih => intro M; rw [List.foldl_cons, ih, List.map_cons, List.sum_cons, add_assoc]
  rw [crossSum, this, zero_add]

theorem horn_quad (q : Quat ℝ) (hq : UnitQ q) (left right : List (Vec ℝ 3)) (a b : Vec ℝ 3) :
    vec4 q ⬝ᵥ (hornMatrix (crossSum left right a b) *ᵥ vec4 q) =
      ((left.zip right).map fun p => corr (toMatrix q) (p.1 - a) (p.2 - b)).sum := by
  rw [crossSum_eq]
  induction left.zip right with
  | nil => simp [horn_zero]
  | cons x xs ih =>
    rw [List.map_cons, List.sum_cons, horn_add, Matrix.add_mulVec, dotProduct_add, ih,
      horn_outer q hq, List.map_cons, List.sum_cons]

/-- The largest eigenvalue bounds the quadratic form on unit vectors, and its eigenvector
attains the bound. -/
theorem quad_le_top {N V : Mat ℝ 4 4} {W : Vec ℝ 4} (hW : Monotone W) (hV : Vᵀ * V = 1)
    (hE : ∀ k, N *ᵥ (fun i => V i k) = W k • fun i => V i k) (x : Vec ℝ 4) (hx : x ⬝ᵥ x = 1) :
    x ⬝ᵥ (N *ᵥ x) ≤ W 3 ∧
      (fun i => V i 3) ⬝ᵥ (N *ᵥ fun i => V i 3) = W 3 ∧ (fun i => V i 3) ⬝ᵥ (fun i => V i 3) = 1 := by
  have hV' : V * Vᵀ = 1 := mul_eq_one_comm.mp hV
  have hNV : N * V = V * Matrix.diagonal W := by
    ext i k
    rw [Matrix.mul_diagonal]
    have := congrFun (hE k) i
    simp only [Matrix.mulVec, dotProduct, Pi.smul_apply, smul_eq_mul] at this
    rw [Matrix.mul_apply, this, mul_comm]
  have hN : N = V * Matrix.diagonal W * Vᵀ := by
    rw [← hNV, Matrix.mul_assoc, hV', Matrix.mul_one]
  have h3 : (fun i => V i 3) ⬝ᵥ (fun i => V i 3) = 1 := by
    have := congrFun (congrFun hV 3) 3
    simpa [Matrix.mul_apply, dotProduct] using this
  refine ⟨?_, ?_, h3⟩
  · obtain ⟨y, hy⟩ : ∃ y, y = Vᵀ *ᵥ x := ⟨_, rfl⟩
    have hquad : x ⬝ᵥ (N *ᵥ x) = y ⬝ᵥ (Matrix.diagonal W *ᵥ y) := by
      rw [hN, ← Matrix.mulVec_mulVec, ← Matrix.mulVec_mulVec, hy, Matrix.dotProduct_mulVec,
        ← Matrix.mulVec_transpose]
    have hyy : y ⬝ᵥ y = 1 := by
      rw [hy, Matrix.dotProduct_mulVec, Matrix.vecMul_transpose, Matrix.mulVec_mulVec, hV',
        Matrix.one_mulVec, hx]
    rw [hquad]
    simp only [dotProduct, Matrix.mulVec_diagonal, Fin.sum_univ_four] at hyy ⊢
    have h0 := hW (show (0 : Fin 4) ≤ 3 by decide)
    have h1 := hW (show (1 : Fin 4) ≤ 3 by decide)
    have h2 := hW (show (2 : Fin 4) ≤ 3 by decide)
    have hW3 : W 3 * (y 0 * y 0 + y 1 * y 1 + y 2 * y 2 + y 3 * y 3) = W 3 := by
      rw [hyy, mul_one]
    nlinarith [mul_nonneg (sub_nonneg.mpr h0) (mul_self_nonneg (y 0)),
      mul_nonneg (sub_nonneg.mpr h1) (mul_self_nonneg (y 1)),
      mul_nonneg (sub_nonneg.mpr h2) (mul_self_nonneg (y 2))]
  · rw [hE, dotProduct_smul, h3, smul_eq_mul, mul_one]

theorem vec4_unit {q : Quat ℝ} : vec4 q ⬝ᵥ vec4 q = 1 ↔ UnitQ q := by
  simp only [vec4, dotProduct, Fin.sum_univ_four, UnitQ]
  constructor <;> intro h <;> simp at h ⊢ <;> linarith

theorem rotation_length {R : Mat ℝ 3 3} (hR : Rᵀ * R = 1) (v : Vec ℝ 3) :
    lenSq (R *ᵥ v) = lenSq v := by
  have h : (R *ᵥ v) ⬝ᵥ (R *ᵥ v) = v ⬝ᵥ v := by
    rw [Matrix.dotProduct_mulVec, ← Matrix.mulVec_transpose, Matrix.mulVec_mulVec, hR,
      Matrix.one_mulVec]
  simp only [dotProduct, Fin.sum_univ_three] at h
  simp only [lenSq]; linarith

/-- The error of one pair, split around the centroids. -/
theorem pair_split {R : Mat ℝ 3 3} (hR : Rᵀ * R = 1) (t a b x y : Vec ℝ 3) :
    lenSq (x - (R *ᵥ y + t)) = lenSq (x - a) + lenSq (y - b) - 2 * corr R (x - a) (y - b) +
      (lenSq (a - R *ᵥ b - t) +
        (2 * ((x - a) ⬝ᵥ (a - R *ᵥ b - t)) - 2 * ((y - b) ⬝ᵥ (Rᵀ *ᵥ (a - R *ᵥ b - t))))) := by
  have h := rotation_length hR (y - b)
  obtain ⟨d, hd⟩ : ∃ d, d = a - R *ᵥ b - t := ⟨_, rfl⟩
  have e : x - (R *ᵥ y + t) = (x - a) - R *ᵥ (y - b) + d := by
    rw [hd, Matrix.mulVec_sub]; abel
  have e2 : (y - b) ⬝ᵥ (Rᵀ *ᵥ d) = (R *ᵥ (y - b)) ⬝ᵥ d := by
    rw [Matrix.dotProduct_mulVec, Matrix.vecMul_transpose]
  rw [← hd, e, e2, ← h]
  obtain ⟨u, hu⟩ : ∃ u, u = x - a := ⟨_, rfl⟩
  obtain ⟨w, hw⟩ : ∃ w, w = R *ᵥ (y - b) := ⟨_, rfl⟩
  simp only [corr, ← hu, ← hw]
  simp only [lenSq, dotProduct, Fin.sum_univ_three, Pi.add_apply, Pi.sub_apply]
  ring

theorem sum_linear_centered (L : List (Vec ℝ 3)) (hL : L ≠ []) (d : Vec ℝ 3) :
    (L.map fun x => (x - mean L) ⬝ᵥ d).sum = 0 := by
  have h1 : ∀ (m : Vec ℝ 3) (L : List (Vec ℝ 3)),
      (L.map fun x => (x - m) ⬝ᵥ d).sum = L.sum ⬝ᵥ d - L.length * (m ⬝ᵥ d) := by
    intro m L
    induction L with
    | nil => simp
    | cons x xs ih =>
      rw [List.map_cons, List.sum_cons, ih, List.sum_cons, add_dotProduct, sub_dotProduct]
      push_cast [List.length_cons]; ring
  have hn : (L.length : ℝ) ≠ 0 := by
    simpa using hL
  rw [h1]
  simp only [dotProduct, mean, Fin.sum_univ_three]
  field_simp
  ring

theorem sum_map_fst (f : Vec ℝ 3 → ℝ) : ∀ (left right : List (Vec ℝ 3)), left.length = right.length →
    ((left.zip right).map fun p => f p.1).sum = (left.map f).sum := by
  intro left right h
  have : (left.zip right).map (fun p => f p.1) = ((left.zip right).map Prod.fst).map f := by
    simp
  rw [this, List.map_fst_zip h.le]

theorem sum_map_snd (f : Vec ℝ 3 → ℝ) : ∀ (left right : List (Vec ℝ 3)), left.length = right.length →
    ((left.zip right).map fun p => f p.2).sum = (right.map f).sum := by
  intro left right h
  have : (left.zip right).map (fun p => f p.2) = ((left.zip right).map Prod.snd).map f := by
    simp
  rw [this, List.map_snd_zip h.ge]

/-- The total error of a rigid motion: constant, minus twice the correlation, plus the offset of
the centroids. -/
theorem alignError_split (left right : List (Vec ℝ 3)) (hlen : left.length = right.length)
    (hne : left ≠ []) {R : Mat ℝ 3 3} (hR : Rᵀ * R = 1) (t : Vec ℝ 3) :
    alignError left right (fun b => R *ᵥ b + t) =
      (left.map fun x => lenSq (x - mean left)).sum + (right.map fun y => lenSq (y - mean right)).sum
      - 2 * ((left.zip right).map fun p => corr R (p.1 - mean left) (p.2 - mean right)).sum
      + left.length * lenSq (mean left - R *ᵥ mean right - t) := by
  have hne' : right ≠ [] := by
    rintro rfl; simp at hlen; exact hne hlen
  have z1 := sum_linear_centered left hne (mean left - R *ᵥ mean right - t)
  have z2 := sum_linear_centered right hne' (Rᵀ *ᵥ (mean left - R *ᵥ mean right - t))
  rw [← sum_map_fst _ left right hlen] at z1
  rw [← sum_map_snd _ left right hlen] at z2
  rw [← sum_map_fst (fun x => lenSq (x - mean left)) left right hlen,
    ← sum_map_snd (fun y => lenSq (y - mean right)) left right hlen]
  have hl : (left.length : ℝ) = ((left.zip right).length : ℝ) := by simp [hlen]
  rw [hl, alignError]
  have key : ∀ L : List (Vec ℝ 3 × Vec ℝ 3),
      (L.map fun p => lenSq (p.1 - (R *ᵥ p.2 + t))).sum =
      (L.map fun p => lenSq (p.1 - mean left)).sum + (L.map fun p => lenSq (p.2 - mean right)).sum
      - 2 * (L.map fun p => corr R (p.1 - mean left) (p.2 - mean right)).sum
      + L.length * lenSq (mean left - R *ᵥ mean right - t)
      + 2 * (L.map fun p => (p.1 - mean left) ⬝ᵥ (mean left - R *ᵥ mean right - t)).sum
      - 2 * (L.map fun p => (p.2 - mean right) ⬝ᵥ
          (Rᵀ *ᵥ (mean left - R *ᵥ mean right - t))).sum := by
    intro L
    induction L with
    | nil => simp
    | cons p ps ih =>
      simp only [List.map_cons, List.sum_cons, List.length_cons]
      rw [ih, pair_split hR t (mean left) (mean right)]
      push_cast; ring
  rw [key, z1, z2]; ring

end Ubitrack.AbsoluteOrientation

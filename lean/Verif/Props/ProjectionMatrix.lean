import Verif.Model.ProjectionMatrix
import Verif.Spec.Rotation
import Verif.Spec.Projection
import Verif.Spec.Alignment
import Mathlib.Tactic.FinCases
import Mathlib.Tactic.LinearCombination
import Mathlib.Tactic.FieldSimp
import Mathlib.Tactic.Positivity

/-!
# C42, C59: OpenGL projection matrices, decomposition of camera matrices
-/

namespace Ubitrack.ProjectionMatrix

open Ubitrack.Spec Matrix

/-- Normalised device coordinates of a point: what OpenGL computes from a projection matrix. -/
noncomputable def ndc (M : Mat ℝ 4 4) (x : Vec ℝ 3) : Vec ℝ 3 :=
  let c := M *ᵥ ![x 0, x 1, x 2, 1]
  ![c 0 / c 3, c 1 / c 3, c 2 / c 3]

/-- Length of the viewing direction (the third row) of a camera matrix. -/
noncomputable def viewLength (m : Mat ℝ 3 4) : ℝ := Real.sqrt (m 2 0 ^ 2 + m 2 1 ^ 2 + m 2 2 ^ 2)

/-- Depth of a point in a camera: see `C42_depth`. -/
noncomputable def depth (m : Mat ℝ 3 4) (x : Vec ℝ 3) : ℝ := camMul m x 2 / viewLength m

/-- The depth is the distance of the point from the camera plane (the points without an image). -/
theorem C42_depth (m : Mat ℝ 3 4) (hm : viewLength m ≠ 0) (x : Vec ℝ 3) :
    (∃ y, camMul m y 2 = 0 ∧ lenSq (x - y) = depth m x ^ 2) ∧ ∀ y, camMul m y 2 = 0 → depth m x ^ 2 ≤ lenSq (x - y) := by
  have hs : viewLength m ^ 2 = m 2 0 ^ 2 + m 2 1 ^ 2 + m 2 2 ^ 2 := Real.sq_sqrt (by positivity)
  have hc : ∀ z, camMul m z 2 = m 2 0 * z 0 + m 2 1 * z 1 + m 2 2 * z 2 + m 2 3 := by
    intro z
    simp [camMul, mulVec, dotProduct, Fin.sum_univ_four]
  have hpos : 0 < viewLength m ^ 2 := by positivity
  constructor
  · refine ⟨fun i => x i - camMul m x 2 / viewLength m ^ 2 * m 2 (Fin.castSucc i), ?_, ?_⟩
    · rw [hc]
      have e : (viewLength m ^ 2 - (m 2 0 ^ 2 + m 2 1 ^ 2 + m 2 2 ^ 2)) * (camMul m x 2 / viewLength m ^ 2) = 0 := by
        rw [hs]; ring
      have e2 : viewLength m ^ 2 * (camMul m x 2 / viewLength m ^ 2) = camMul m x 2 := mul_div_cancel₀ _ hpos.ne'
      rw [hc x] at e e2 ⊢
      simp only [Fin.castSucc_zero, Fin.castSucc_one, show (Fin.castSucc (2 : Fin 3)) = (2 : Fin 4) from rfl]
      linear_combination e - e2
    · simp only [lenSq, Pi.sub_apply, depth, Fin.castSucc_zero, Fin.castSucc_one, show (Fin.castSucc (2 : Fin 3)) = (2 : Fin 4) from rfl]
      rw [div_pow]
      have e : (camMul m x 2 / viewLength m ^ 2) ^ 2 * viewLength m ^ 2 = camMul m x 2 ^ 2 / viewLength m ^ 2 := by
        field_simp
      rw [← e]
      generalize camMul m x 2 / viewLength m ^ 2 = c
      rw [hs]
      ring
  · intro y hy
    rw [depth, div_pow, div_le_iff₀ hpos, hs]
    rw [hc] at hy
    have : camMul m x 2 = m 2 0 * (x 0 - y 0) + m 2 1 * (x 1 - y 1) + m 2 2 * (x 2 - y 2) := by
      rw [hc]; linear_combination hy
    rw [this]
    simp only [lenSq, Pi.sub_apply]
    nlinarith [sq_nonneg (m 2 0 * (x 1 - y 1) - m 2 1 * (x 0 - y 0)), sq_nonneg (m 2 0 * (x 2 - y 2) - m 2 2 * (x 0 - y 0)),
      sq_nonneg (m 2 1 * (x 2 - y 2) - m 2 2 * (x 1 - y 1))]

/-- **C42** The OpenGL matrix of a camera: the image coordinates are mapped linearly, `[l,r]` and `[b,t]` to `[-1,1]`, and the
depth hyperbolically. -/
theorem C42_opengl (l r b t n f : ℝ) (m : Mat ℝ 3 4) (x : Vec ℝ 3) (hlr : l ≠ r) (hbt : b ≠ t) (hnf : n ≠ f)
    (_hm : viewLength m ≠ 0) (hx : camMul m x 2 ≠ 0) :
    ndc (toOpenGL l r b t n f m) x =
      ![2 * (dehom (camMul m x) 0 - l) / (r - l) - 1, 2 * (dehom (camMul m x) 1 - b) / (t - b) - 1,
        (f + n) / (f - n) - 2 * f * n / ((f - n) * depth m x)] := by
  have h1 : r - l ≠ 0 := sub_ne_zero.mpr hlr.symm
  have h1' : l - r ≠ 0 := sub_ne_zero.mpr hlr
  have h2 : t - b ≠ 0 := sub_ne_zero.mpr hbt.symm
  have h2' : b - t ≠ 0 := sub_ne_zero.mpr hbt
  have h3 : f - n ≠ 0 := sub_ne_zero.mpr hnf.symm
  have h3' : n - f ≠ 0 := sub_ne_zero.mpr hnf
  have hn : Real.sqrt (m 2 0 * m 2 0 + m 2 1 * m 2 1 + m 2 2 * m 2 2) = viewLength m := by
    unfold viewLength; congr 1; ring
  have hc : ∀ i, camMul m x i = m i 0 * x 0 + m i 1 * x 1 + m i 2 * x 2 + m i 3 := by
    intro i
    simp [camMul, mulVec, dotProduct, Fin.sum_univ_four]
  have hi : intermediate n f m *ᵥ ![x 0, x 1, x 2, 1] =
      ![camMul m x 0, camMul m x 1, (-f - n) * camMul m x 2 + f * n * viewLength m, camMul m x 2] := by
    ext i
    fin_cases i <;> simp [intermediate, mulVec, dotProduct, Fin.sum_univ_four, hc, hn]
    ring
  have ho : ∀ v : Vec ℝ 4, ortho l r b t n f *ᵥ v =
      ![2 / (r - l) * v 0 + (r + l) / (l - r) * v 3, 2 / (t - b) * v 1 + (t + b) / (b - t) * v 3,
        2 / (n - f) * v 2 + (f + n) / (n - f) * v 3, v 3] := by
    intro v
    ext i
    fin_cases i <;> simp [ortho, mulVec, dotProduct, Fin.sum_univ_four] <;> norm_num
  unfold ndc toOpenGL
  rw [← Matrix.mulVec_mulVec, hi, ho]
  ext i
  fin_cases i
  · simp [dehom]
    rw [show (r + l) / (l - r) = -((r + l) / (r - l)) by rw [← neg_sub r l, div_neg]]
    field_simp
    ring
  · simp [dehom]
    rw [show (t + b) / (b - t) = -((t + b) / (t - b)) by rw [← neg_sub t b, div_neg]]
    field_simp
    ring
  · simp [depth]
    rw [show (f + n) / (n - f) = -((f + n) / (f - n)) by rw [← neg_sub f n, div_neg],
      show 2 / (n - f) = -(2 / (f - n)) by rw [← neg_sub f n, div_neg]]
    field_simp
    ring

/-- **C42** The sides of the clip cube are exactly the given image borders and the planes at depth `n` and `f`. -/
theorem C42_planes (l r b t n f : ℝ) (m : Mat ℝ 3 4) (x : Vec ℝ 3) (hlr : l ≠ r) (hbt : b ≠ t) (hnf : n ≠ f) (hn : n ≠ 0) (hf : f ≠ 0)
    (hm : viewLength m ≠ 0) (hx : camMul m x 2 ≠ 0) :
    (ndc (toOpenGL l r b t n f m) x 0 = -1 ↔ dehom (camMul m x) 0 = l) ∧
    (ndc (toOpenGL l r b t n f m) x 0 = 1 ↔ dehom (camMul m x) 0 = r) ∧
    (ndc (toOpenGL l r b t n f m) x 1 = -1 ↔ dehom (camMul m x) 1 = b) ∧
    (ndc (toOpenGL l r b t n f m) x 1 = 1 ↔ dehom (camMul m x) 1 = t) ∧
    (ndc (toOpenGL l r b t n f m) x 2 = -1 ↔ depth m x = n) ∧
    (ndc (toOpenGL l r b t n f m) x 2 = 1 ↔ depth m x = f) := by
  rw [C42_opengl l r b t n f m x hlr hbt hnf hm hx]
  have h1 : r - l ≠ 0 := sub_ne_zero.mpr hlr.symm
  have h2 : t - b ≠ 0 := sub_ne_zero.mpr hbt.symm
  have h3 : f - n ≠ 0 := sub_ne_zero.mpr hnf.symm
  have hd : depth m x ≠ 0 := div_ne_zero hx hm
  simp only [Matrix.cons_val]
  generalize dehom (camMul m x) 0 = u
  generalize dehom (camMul m x) 1 = v
  generalize depth m x = d at hd
  refine ⟨?_, ?_, ?_, ?_, ?_, ?_⟩
  all_goals
    field_simp
    constructor <;> intro h
  · linarith
  · linarith
  · linarith
  · linarith
  · linarith
  · linarith
  · linarith
  · linarith
  · have : f * (d - n) = 0 := by linear_combination h / 2
    have := (mul_eq_zero.mp this).resolve_left hf
    linarith
  · subst h; ring
  · have : n * (d - f) = 0 := by linear_combination h / 2
    have := (mul_eq_zero.mp this).resolve_left hn
    linarith
  · subst h; ring

/-- **C42** The view volume: a point in front of the camera is in the clip cube exactly if its image is in the viewport and its
depth between near and far plane. -/
theorem C42_volume (l r b t n f : ℝ) (m : Mat ℝ 3 4) (x : Vec ℝ 3) (hlr : l < r) (hbt : b < t) (hn : 0 < n) (hnf : n < f)
    (hm : viewLength m ≠ 0) (hx : 0 < camMul m x 2) :
    (∀ i, -1 ≤ ndc (toOpenGL l r b t n f m) x i ∧ ndc (toOpenGL l r b t n f m) x i ≤ 1) ↔
      (l ≤ dehom (camMul m x) 0 ∧ dehom (camMul m x) 0 ≤ r) ∧ (b ≤ dehom (camMul m x) 1 ∧ dehom (camMul m x) 1 ≤ t) ∧
      n ≤ depth m x ∧ depth m x ≤ f := by
  rw [C42_opengl l r b t n f m x hlr.ne hbt.ne hnf.ne hm hx.ne']
  have h1 : 0 < r - l := sub_pos.mpr hlr
  have h2 : 0 < t - b := sub_pos.mpr hbt
  have h3 : 0 < f - n := sub_pos.mpr hnf
  have hf : 0 < f := hn.trans hnf
  have hd : 0 < depth m x := div_pos hx (lt_of_le_of_ne (Real.sqrt_nonneg _) hm.symm)
  rw [Fin.forall_fin_succ, Fin.forall_fin_two]
  simp only [Fin.succ_zero_eq_one, Fin.succ_one_eq_two, Matrix.cons_val]
  generalize dehom (camMul m x) 0 = u
  generalize dehom (camMul m x) 1 = v
  generalize depth m x = d at hd
  have lin : ∀ {a c u : ℝ}, 0 < c - a → ((-1 ≤ 2 * (u - a) / (c - a) - 1 ∧ 2 * (u - a) / (c - a) - 1 ≤ 1) ↔ (a ≤ u ∧ u ≤ c)) := by
    intro a c u hac
    rw [show (-1 ≤ 2 * (u - a) / (c - a) - 1) ↔ 0 ≤ 2 * (u - a) / (c - a) by constructor <;> intro h <;> linarith,
      show (2 * (u - a) / (c - a) - 1 ≤ 1) ↔ 2 * (u - a) / (c - a) ≤ 2 by constructor <;> intro h <;> linarith,
      le_div_iff₀ hac, div_le_iff₀ hac]
    constructor <;> rintro ⟨h1, h2⟩ <;> constructor <;> linarith
  have hyp : (-1 ≤ (f + n) / (f - n) - 2 * f * n / ((f - n) * d) ∧ (f + n) / (f - n) - 2 * f * n / ((f - n) * d) ≤ 1) ↔ (n ≤ d ∧ d ≤ f) := by
    have e : (f + n) / (f - n) - 2 * f * n / ((f - n) * d) = ((f + n) * d - 2 * f * n) / ((f - n) * d) := by
      field_simp
    have hp : 0 < (f - n) * d := mul_pos h3 hd
    rw [e, le_div_iff₀ hp, div_le_iff₀ hp]
    constructor
    · rintro ⟨k1, k2⟩
      constructor
      · have : f * n ≤ f * d := by nlinarith
        exact le_of_mul_le_mul_left this hf
      · have : n * d ≤ n * f := by nlinarith
        exact le_of_mul_le_mul_left this hn
    · rintro ⟨k1, k2⟩
      constructor <;> nlinarith
  rw [lin h1, lin h2, hyp]

/-- **C42** The same for 3x3 camera matrices: they see the points in camera coordinates. -/
theorem C42_opengl3 (l r b t n f : ℝ) (k : Mat ℝ 3 3) :
    toOpenGL3 l r b t n f k = toOpenGL l r b t n f (k * (!![1, 0, 0, 0; 0, 1, 0, 0; 0, 0, 1, 0] : Mat ℝ 3 4)) := by
  unfold toOpenGL3
  refine congrArg (toOpenGL l r b t n f) ?_
  ext i j
  fin_cases i <;> fin_cases j <;> simp [Matrix.mul_apply, Fin.sum_univ_three]

/-- Non-vacuity of the theorems above: a camera looking along -z and a point in its view volume. -/
example : viewLength !![500, 0, -320, 0; 0, 500, -240, 0; 0, 0, -1, 0] ≠ 0 ∧
    0 < camMul !![500, 0, -320, 0; 0, 500, -240, 0; 0, 0, -1, 0] ![1, 1, -5] 2 := by
  constructor
  · simp [viewLength]
  · simp [camMul, mulVec, dotProduct, Fin.sum_univ_four]

/-- **C42** Changing the origin of the image twice restores the matrix. -/
theorem C42_origin_involutive (k : Mat ℝ 3 3) (origin height : ℤ) :
    correctOrigin (correctOrigin k origin height) origin height = k := by
  unfold correctOrigin
  split
  · ext i j
    fin_cases i <;> fin_cases j <;> simp
  · rfl

/-- **C42** For images with the origin at the top (`origin = 0`) a camera matrix is changed such that every image point is
mirrored vertically: row `y` becomes row `height - 1 - y`. Other matrices stay as they are. -/
theorem C42_origin_mirrors (k : Mat ℝ 3 3) (h10 : k 1 0 = 0) (h20 : k 2 0 = 0) (h21 : k 2 1 = 0) (origin height : ℤ) (v : Vec ℝ 3)
    (hv : (k *ᵥ v) 2 ≠ 0) :
    dehom (correctOrigin k origin height *ᵥ v) =
      if origin = 0 then ![dehom (k *ᵥ v) 0, height - 1 - dehom (k *ᵥ v) 1] else dehom (k *ᵥ v) := by
  unfold correctOrigin
  split
  · simp [mulVec, dotProduct, Fin.sum_univ_three, h20, h21] at hv
    ext i
    fin_cases i
    · simp [dehom, mulVec, dotProduct, Fin.sum_univ_three]
    · simp [dehom, mulVec, dotProduct, Fin.sum_univ_three, h10, h20, h21]
      field_simp [hv.1, hv.2]
      ring
  · rfl

/-- (refuted for matrices with an entry below the diagonal) The entry (1,0) is forgotten. -/
theorem C42_origin_mirrors_refuted : ∃ (k : Mat ℝ 3 3) (height : ℤ) (v : Vec ℝ 3), k 2 0 = 0 ∧ k 2 1 = 0 ∧ (k *ᵥ v) 2 ≠ 0 ∧
    dehom (correctOrigin k 0 height *ᵥ v) 1 ≠ height - 1 - dehom (k *ᵥ v) 1 := by
  refine ⟨!![1, 0, 0; 1, 1, 0; 0, 0, 1], 1, ![1, 0, 1], ?_, ?_, ?_, ?_⟩
  all_goals simp [correctOrigin, dehom, mulVec, dotProduct, Fin.sum_univ_three]
  norm_num

example : (!![500, 0, -320; 0, 500, -240; 0, 0, -1] *ᵥ ![1, 1, -5] : Vec ℝ 3) 2 ≠ 0 := by
  simp [mulVec, dotProduct, Fin.sum_univ_three]

/-- The point of the screen with relative coordinates `a` (from left to right) and `b` (from bottom to top). -/
def screenPoint (ll ul lr : Vec ℝ 3) (a b : ℝ) : Vec ℝ 3 := ll + a • (lr - ll) + b • (ul - ll)

/-- **C42** The off-axis projection: for a rectangular screen of the given size, a point on the line from the eye through the
screen point `(a, b)` is mapped to `(2a-1, 2b-1)`; its depth (`s` times the distance of the eye from the screen) is mapped
hyperbolically, near plane to -1, far plane to 1. -/
theorem C42_off_axis (eye ll ul lr : Vec ℝ 3) (n f sw sh : ℝ) (hsw : sw ≠ 0) (hsh : sh ≠ 0)
    (hw : lenSq (lr - ll) = sw ^ 2) (hh : lenSq (ul - ll) = sh ^ 2) (hort : (lr - ll) ⬝ᵥ (ul - ll) = 0)
    (hn : n ≠ 0) (hnf : n ≠ f) (D : ℝ) (hD : D = (eye - ll) ⬝ᵥ cross (lr - ll) (ul - ll) / (sw * sh)) (hD0 : D ≠ 0)
    (a b s : ℝ) (hs : s ≠ 0) :
    ndc (offAxis eye ll ul lr n f sw sh) (eye + s • (screenPoint ll ul lr a b - eye)) =
      ![2 * a - 1, 2 * b - 1, (f + n) / (f - n) - 2 * f * n / ((f - n) * (s * D))] := by
  have h3 : f - n ≠ 0 := sub_ne_zero.mpr hnf.symm
  obtain ⟨X, hX⟩ : ∃ X : Vec ℝ 3, X = fun i => (lr i - ll i) / sw := ⟨_, rfl⟩
  obtain ⟨Y, hY⟩ : ∃ Y : Vec ℝ 3, Y = fun i => (ul i - ll i) / sh := ⟨_, rfl⟩
  have hlr : ∀ i, lr i = ll i + sw * X i := fun i => by rw [hX]; field_simp; ring
  have hul : ∀ i, ul i = ll i + sh * Y i := fun i => by rw [hY]; field_simp; ring
  have XX : X 0 ^ 2 + X 1 ^ 2 + X 2 ^ 2 = 1 := by
    simp only [lenSq, Pi.sub_apply, hlr] at hw
    have : sw ^ 2 * (X 0 ^ 2 + X 1 ^ 2 + X 2 ^ 2 - 1) = 0 := by linear_combination hw
    have := (mul_eq_zero.mp this).resolve_left (pow_ne_zero 2 hsw)
    linarith
  have YY : Y 0 ^ 2 + Y 1 ^ 2 + Y 2 ^ 2 = 1 := by
    simp only [lenSq, Pi.sub_apply, hul] at hh
    have : sh ^ 2 * (Y 0 ^ 2 + Y 1 ^ 2 + Y 2 ^ 2 - 1) = 0 := by linear_combination hh
    have := (mul_eq_zero.mp this).resolve_left (pow_ne_zero 2 hsh)
    linarith
  have XY : X 0 * Y 0 + X 1 * Y 1 + X 2 * Y 2 = 0 := by
    simp only [dotProduct, Fin.sum_univ_three, Pi.sub_apply, hul, hlr] at hort
    have : (sw * sh) * (X 0 * Y 0 + X 1 * Y 1 + X 2 * Y 2) = 0 := by linear_combination hort
    exact (mul_eq_zero.mp this).resolve_left (mul_ne_zero hsw hsh)
  have hdist : inner3 (fun i => eye i - ll i) (cross X Y) = D := by
    rw [hD, eq_div_iff (mul_ne_zero hsw hsh)]
    simp only [inner3, cross, dotProduct, Fin.sum_univ_three, Pi.sub_apply, hul, hlr, Matrix.cons_val]
    ring
  have hq : ∀ i, (eye + s • (screenPoint ll ul lr a b - eye)) i = eye i + s * (ll i + a * (sw * X i) + b * (sh * Y i) - eye i) := by
    intro i
    simp only [screenPoint, Pi.add_apply, Pi.smul_apply, Pi.sub_apply, smul_eq_mul, hlr, hul]
    ring
  obtain ⟨L, hL⟩ : ∃ L, L = inner3 (fun i => eye i - ll i) X := ⟨_, rfl⟩
  obtain ⟨Bu, hBu⟩ : ∃ Bu, Bu = inner3 (fun i => eye i - ll i) Y := ⟨_, rfl⟩
  -- camera coordinates
  have hview : ((!![X 0, Y 0, cross X Y 0, 0; X 1, Y 1, cross X Y 1, 0; X 2, Y 2, cross X Y 2, 0; 0, 0, 0, 1.0] : Mat ℝ 4 4)ᵀ *
      (!![1, 0, 0, -eye 0; 0, 1, 0, -eye 1; 0, 0, 1, -eye 2; 0, 0, 0, 1] : Mat ℝ 4 4)) *ᵥ
      ![(eye + s • (screenPoint ll ul lr a b - eye)) 0, (eye + s • (screenPoint ll ul lr a b - eye)) 1,
        (eye + s • (screenPoint ll ul lr a b - eye)) 2, 1] =
      ![s * (a * sw - L), s * (b * sh - Bu), -(s * D), 1] := by
    rw [← Matrix.mulVec_mulVec, hL, hBu, ← hdist]
    ext i
    fin_cases i
    all_goals simp only [mulVec, dotProduct, Fin.sum_univ_four, Matrix.transpose_apply, hq, inner3, cross, Fin.isValue, Fin.zero_eta,
      Fin.mk_one, Fin.reduceFinMk, Matrix.of_apply, Matrix.cons_val]
    · linear_combination s * a * sw * XX + s * b * sh * XY
    · linear_combination s * a * sw * XY + s * b * sh * YY
    · ring
    · norm_num
  have hXi : ∀ i, (lr i - ll i) / sw = X i := fun i => by rw [hX]
  have hYi : ∀ i, (ul i - ll i) / sh = Y i := fun i => by rw [hY]
  unfold ndc offAxis
  simp only [hXi, hYi, hdist, ← hL, ← hBu]
  rw [← Matrix.mulVec_mulVec, hview]
  have e1 : (sw - L) * n / D - -L * n / D = sw * n / D := by ring
  have e2 : (sh - Bu) * n / D - -Bu * n / D = sh * n / D := by ring
  simp only [e1, e2]
  ext i
  fin_cases i
  · simp [mulVec, dotProduct, Fin.sum_univ_four]
    field_simp
    ring
  · simp [mulVec, dotProduct, Fin.sum_univ_four]
    field_simp
    ring
  · simp [mulVec, dotProduct, Fin.sum_univ_four]
    field_simp
    ring

/-- Non-vacuity: a screen of 4 by 3 in the plane z = 0 and an eye in front of it. -/
example : lenSq (![4, 0, 0] - ![0, 0, 0] : Vec ℝ 3) = 4 ^ 2 ∧ lenSq (![0, 3, 0] - ![0, 0, 0] : Vec ℝ 3) = 3 ^ 2 ∧
    (![4, 0, 0] - ![0, 0, 0] : Vec ℝ 3) ⬝ᵥ (![0, 3, 0] - ![0, 0, 0]) = 0 ∧
    (![1, 1, 5] - ![0, 0, 0] : Vec ℝ 3) ⬝ᵥ cross (![4, 0, 0] - ![0, 0, 0]) (![0, 3, 0] - ![0, 0, 0]) / (4 * 3) = 5 := by
  simp [lenSq, dotProduct, Fin.sum_univ_three, cross]

/-! ### C59: decomposition of a camera matrix -/

/-- `k r = a` with an upper triangular and an orthogonal matrix: what LAPACK's `gerqf` and `orgrq` compute (the entries below
the diagonal of the first result are not part of the decomposition). -/
def IsRQ (a : Mat ℝ 3 3) (kr : Mat ℝ 3 3 × Mat ℝ 3 3) : Prop := upper kr.1 * kr.2 = a ∧ kr.2 * kr.2ᵀ = 1

/-- The left 3x3 block of a camera matrix. -/
def left3 (p : Mat ℝ 3 4) : Mat ℝ 3 3 := fun i j => p i (Fin.castSucc j)

/-- The camera matrix `k [r | t]`. -/
def compose (d : Decomposition) : Mat ℝ 3 4 := fun i => Fin.snoc (fun j => (d.k * d.r) i j) ((d.k *ᵥ d.t) i)

theorem signs (k r : Mat ℝ 3 3) (hr : r.det ≠ 0) (h00 : k 0 0 ≠ 0) (h22 : k 2 2 ≠ 0) :
    (∀ i, scaleSigns k r i = 1 ∨ scaleSigns k r i = -1) ∧
    0 < scaleSigns k r 0 * scaleSigns k r 1 * scaleSigns k r 2 * r.det ∧
    0 < k 0 0 * scaleSigns k r 0 ∧ k 2 2 * scaleSigns k r 2 < 0 := by
  unfold scaleSigns
  rw [Fin.forall_fin_succ, Fin.forall_fin_two]
  rcases lt_or_gt_of_ne hr with hr | hr <;> rcases lt_or_gt_of_ne h00 with h0 | h0 <;> rcases lt_or_gt_of_ne h22 with h2 | h2 <;>
    simp [hr, h0, h2, not_lt.mpr hr.le, not_lt.mpr h0.le, not_lt.mpr h2.le]

theorem trsm_solves (k : Mat ℝ 3 3) (h10 : k 1 0 = 0) (h20 : k 2 0 = 0) (h21 : k 2 1 = 0) (h0 : k 0 0 ≠ 0) (h1 : k 1 1 ≠ 0)
    (h2 : k 2 2 ≠ 0) (b : Vec ℝ 3) : k *ᵥ trsm k b = b := by
  ext i
  fin_cases i
  all_goals
    simp [trsm, mulVec, dotProduct, Fin.sum_univ_three, h10, h20, h21]
    field_simp
  all_goals ring

/-- **C59** Decomposition of a camera matrix: the calibration matrix is upper triangular with positive first and third diagonal
element -1, the rotation is a proper rotation, and both multiply to the left part of the matrix, scaled to a viewing
direction of length one and with the sign for which the origin lies in front of the camera. The translation solves
`k t = ` fourth column, but without that scaling. -/
theorem C59_decompose_partial (rq : Mat ℝ 3 3 → Mat ℝ 3 3 × Mat ℝ 3 3) (hrq : ∀ a, a.det ≠ 0 → IsRQ a (rq a)) (p : Mat ℝ 3 4)
    (hp : (left3 p).det ≠ 0) (σ : ℝ) (hσ : σ = if p 2 3 < 0 then -1 else 1) :
    let d := decompose rq p
    (d.k 1 0 = 0 ∧ d.k 2 0 = 0 ∧ d.k 2 1 = 0 ∧ 0 < d.k 0 0 ∧ d.k 2 2 = -1) ∧
    IsRotation d.r ∧
    d.k * d.r = (σ / viewLength p) • left3 p ∧ d.k *ᵥ d.t = fun i => σ * p i 3 := by
  intro d
  obtain ⟨P, hP⟩ : ∃ P : Mat ℝ 3 4, P = if p 2 3 < 0 then fun i j => p i j * -1 else p := ⟨_, rfl⟩
  have hPe : ∀ i j, P i j = σ * p i j := by
    intro i j
    by_cases h : p 2 3 < 0 <;> simp [hP, hσ, h]
  have hσ2 : σ = 1 ∨ σ = -1 := by rw [hσ]; split <;> simp
  have hA : left3 P = σ • left3 p := by
    ext i j
    simp [left3, hPe]
  have hdetA : (left3 P).det ≠ 0 := by
    rw [hA, Matrix.det_smul]
    refine mul_ne_zero (pow_ne_zero _ ?_) hp
    rcases hσ2 with h | h <;> rw [h] <;> norm_num
  obtain ⟨hKR, hR⟩ := hrq (left3 P) hdetA
  obtain ⟨K, hK⟩ : ∃ K, K = upper (rq (left3 P)).1 := ⟨_, rfl⟩
  obtain ⟨R, hRdef⟩ : ∃ R, R = (rq (left3 P)).2 := ⟨_, rfl⟩
  rw [← hK, ← hRdef] at hKR
  rw [← hRdef] at hR
  have hdetR : R.det * R.det = 1 := by
    have := congrArg Matrix.det hR
    rwa [Matrix.det_mul, Matrix.det_transpose, Matrix.det_one] at this
  have hdetR0 : R.det ≠ 0 := fun h => by rw [h] at hdetR; simp at hdetR
  have hdetK : K.det ≠ 0 := by
    rw [← hKR, Matrix.det_mul] at hdetA
    exact left_ne_zero_of_mul hdetA
  have K10 : K 1 0 = 0 := by rw [hK]; rfl
  have K20 : K 2 0 = 0 := by rw [hK]; rfl
  have K21 : K 2 1 = 0 := by rw [hK]; rfl
  have hdetK' : K.det = K 0 0 * K 1 1 * K 2 2 := by
    rw [Matrix.det_fin_three, K10, K20, K21]; ring
  rw [hdetK'] at hdetK
  have K22 : K 2 2 ≠ 0 := right_ne_zero_of_mul hdetK
  have K11 : K 1 1 ≠ 0 := right_ne_zero_of_mul (left_ne_zero_of_mul hdetK)
  have K00 : K 0 0 ≠ 0 := left_ne_zero_of_mul (left_ne_zero_of_mul hdetK)
  obtain ⟨s1, s2, s3, s4⟩ := signs K R hdetR0 K00 K22
  obtain ⟨s, hs⟩ : ∃ s, s = scaleSigns K R := ⟨_, rfl⟩
  rw [← hs] at s1 s2 s3 s4
  have hss : ∀ i, s i * s i = 1 := fun i => by rcases s1 i with h | h <;> rw [h] <;> norm_num
  have hs0 : ∀ i, s i ≠ 0 := fun i h => by have := hss i; rw [h] at this; simp at this
  -- third diagonal element: its absolute value is the length of the viewing direction
  have hview : viewLength p ^ 2 = p 2 0 ^ 2 + p 2 1 ^ 2 + p 2 2 ^ 2 := Real.sq_sqrt (by positivity)
  have hrow : ∀ j, σ * p 2 (Fin.castSucc j) = K 2 2 * R 2 j := by
    intro j
    have := congrFun (congrFun hKR 2) j
    rw [Matrix.mul_apply, Fin.sum_univ_three, K20, K21] at this
    simp only [left3, hPe] at this
    linarith
  have hRrow : R 2 0 ^ 2 + R 2 1 ^ 2 + R 2 2 ^ 2 = 1 := by
    have := congrFun (congrFun hR 2) 2
    rw [Matrix.mul_apply, Fin.sum_univ_three] at this
    simp only [Matrix.transpose_apply, Matrix.one_apply_eq] at this
    linarith
  have hσσ : σ ^ 2 = 1 := by rcases hσ2 with h | h <;> rw [h] <;> norm_num
  have hg : K 2 2 * s 2 = -viewLength p := by
    have h0 := hrow 0
    have h1 := hrow 1
    have h2 := hrow 2
    simp only [Fin.castSucc_zero, Fin.castSucc_one, show (Fin.castSucc (2 : Fin 3)) = (2 : Fin 4) from rfl] at h0 h1 h2
    have hsq : viewLength p ^ 2 = (K 2 2 * s 2) ^ 2 := by
      have e : σ ^ 2 * viewLength p ^ 2 = K 2 2 ^ 2 * (R 2 0 ^ 2 + R 2 1 ^ 2 + R 2 2 ^ 2) := by
        rw [hview]
        have : σ ^ 2 * (p 2 0 ^ 2 + p 2 1 ^ 2 + p 2 2 ^ 2) = (σ * p 2 0) ^ 2 + (σ * p 2 1) ^ 2 + (σ * p 2 2) ^ 2 := by ring
        rw [this, h0, h1, h2]; ring
      rw [hσσ, hRrow, one_mul, mul_one] at e
      rw [e, mul_pow, sq (s 2), hss, mul_one]
    have hv : 0 ≤ viewLength p := Real.sqrt_nonneg _
    rcases sq_eq_sq_iff_eq_or_eq_neg.mp hsq with h | h <;> linarith
  have hgpos : 0 < viewLength p := by linarith
  have hf : -1 / (K 2 2 * s 2) = 1 / viewLength p := by rw [hg, neg_div_neg_eq]
  obtain ⟨k, hk⟩ : ∃ k : Mat ℝ 3 3, k = fun i j => K i j * s j * (1 / viewLength p) := ⟨_, rfl⟩
  obtain ⟨r, hr⟩ : ∃ r : Mat ℝ 3 3, r = fun i j => R i j * s i := ⟨_, rfl⟩
  have hd : d = ⟨k, r, trsm k fun i => P i 3⟩ := by
    rw [hk, hr, ← hf, hs, hK, hRdef, hP]
    rfl
  have hk : ∀ i j, k i j = K i j * s j * (1 / viewLength p) := fun i j => by rw [hk]
  have hr' : r = Matrix.diagonal s * R := by
    ext i j
    rw [hr, Matrix.diagonal_mul, mul_comm]
  have hr : ∀ i j, r i j = R i j * s i := fun i j => by rw [hr]
  clear_value d
  subst hd
  dsimp only
  refine ⟨⟨by rw [hk, K10]; ring, by rw [hk, K20]; ring, by rw [hk, K21]; ring, ?_, ?_⟩, ⟨?_, ?_⟩, ?_, ?_⟩
  · rw [hk]; exact mul_pos s3 (by positivity)
  · rw [hk, hg]; field_simp
  · refine mul_eq_one_comm.mp ?_
    rw [hr', Matrix.transpose_mul, Matrix.diagonal_transpose, Matrix.mul_assoc, ← Matrix.mul_assoc R, hR, Matrix.one_mul,
      Matrix.diagonal_mul_diagonal, ← Matrix.diagonal_one]
    congr 1
    ext i
    exact hss i
  · have h1 : r.det = s 0 * s 1 * s 2 * R.det := by
      rw [hr', Matrix.det_mul, Matrix.det_diagonal, Fin.prod_univ_three]
    have h2 : (r.det) ^ 2 = 1 := by
      rw [h1, mul_pow, mul_pow, mul_pow, sq, sq, sq, sq, hss, hss, hss, hdetR]; norm_num
    rcases sq_eq_one_iff.mp h2 with h | h
    · exact h
    · linarith
  · ext i j
    have := congrFun (congrFun hKR i) j
    rw [Matrix.mul_apply, Fin.sum_univ_three] at this ⊢
    rw [hA] at this
    simp only [Matrix.smul_apply, smul_eq_mul] at this ⊢
    rw [div_mul_eq_mul_div, ← this, hk, hk, hk, hr, hr, hr]
    have e0 := hss 0
    have e1 := hss 1
    have e2 := hss 2
    field_simp
    linear_combination K i 0 * R 0 j * e0 + K i 1 * R 1 j * e1 + K i 2 * R 2 j * e2
  · rw [trsm_solves _ (by rw [hk, K10]; ring) (by rw [hk, K20]; ring) (by rw [hk, K21]; ring)
      (by rw [hk]; exact mul_ne_zero (mul_ne_zero K00 (hs0 0)) (by positivity))
      (by rw [hk]; exact mul_ne_zero (mul_ne_zero K11 (hs0 1)) (by positivity))
      (by rw [hk]; exact mul_ne_zero (mul_ne_zero K22 (hs0 2)) (by positivity))]
    ext i
    exact hPe i 3

/-- **C59** For camera matrices with a viewing direction of length one (as `projectionDLT` returns them) the parts multiply to
the matrix again, up to the sign. -/
theorem C59_recompose_partial (rq : Mat ℝ 3 3 → Mat ℝ 3 3 × Mat ℝ 3 3) (hrq : ∀ a, a.det ≠ 0 → IsRQ a (rq a)) (p : Mat ℝ 3 4)
    (hp : (left3 p).det ≠ 0) (hview : viewLength p = 1) :
    compose (decompose rq p) = p ∨ compose (decompose rq p) = -p := by
  obtain ⟨-, -, h3, h4⟩ := C59_decompose_partial rq hrq p hp _ rfl
  have key : ∀ σ : ℝ, (decompose rq p).k * (decompose rq p).r = (σ / viewLength p) • left3 p →
      ((decompose rq p).k *ᵥ (decompose rq p).t = fun i => σ * p i 3) → compose (decompose rq p) = σ • p := by
    intro σ h3 h4
    ext i j
    simp only [compose, h3, h4, hview, div_one]
    induction j using Fin.lastCases with
    | last => rw [Fin.snoc_last]; rfl
    | cast j => rw [Fin.snoc_castSucc]; rfl
  by_cases h : p 2 3 < 0
  · right
    simpa using key (-1) (by simpa [h] using h3) (by simpa [h] using h4)
  · left
    simpa using key 1 (by simpa [h] using h3) (by simpa [h] using h4)

/-- An RQ decomposition exists for every regular matrix. -/
theorem exists_rq : ∃ rq : Mat ℝ 3 3 → Mat ℝ 3 3 × Mat ℝ 3 3, ∀ a, a.det ≠ 0 → IsRQ a (rq a) := by
  have key : ∀ a : Mat ℝ 3 3, ∃ kr : Mat ℝ 3 3 × Mat ℝ 3 3, a.det ≠ 0 → IsRQ a kr := by
    intro a
    by_cases ha : a.det = 0
    · exact ⟨(0, 0), fun h => absurd ha h⟩
    have hd : a.det = a 0 ⬝ᵥ cross (a 1) (a 2) := by
      rw [Matrix.det_fin_three]
      simp [dotProduct, Fin.sum_univ_three, cross]
      ring
    have inv : ∀ v : Vec ℝ 3, lenSq v ≠ 0 → ∃ c : ℝ, c ^ 2 * lenSq v = 1 := by
      intro v hv
      have hpos : 0 < lenSq v := lt_of_le_of_ne (by unfold lenSq; positivity) (Ne.symm hv)
      refine ⟨1 / Real.sqrt (lenSq v), ?_⟩
      rw [div_pow, one_pow, Real.sq_sqrt hpos.le]
      field_simp
    have zero : ∀ v : Vec ℝ 3, lenSq v = 0 → ∀ i, v i = 0 := by
      intro v hv i
      unfold lenSq at hv
      have h0 : v 0 = 0 := by nlinarith [sq_nonneg (v 0), sq_nonneg (v 1), sq_nonneg (v 2)]
      have h1 : v 1 = 0 := by nlinarith [sq_nonneg (v 0), sq_nonneg (v 1), sq_nonneg (v 2)]
      have h2 : v 2 = 0 := by nlinarith [sq_nonneg (v 0), sq_nonneg (v 1), sq_nonneg (v 2)]
      fin_cases i <;> assumption
    have h2 : lenSq (a 2) ≠ 0 := by
      intro h
      have := zero _ h
      apply ha
      rw [hd]
      simp [dotProduct, Fin.sum_univ_three, cross, this]
    obtain ⟨c2, hc2⟩ := inv _ h2
    obtain ⟨r2, hr2⟩ : ∃ r2 : Vec ℝ 3, r2 = fun i => c2 * a 2 i := ⟨_, rfl⟩
    have hr2 : ∀ i, r2 i = c2 * a 2 i := fun i => by rw [hr2]
    have n2 : r2 0 ^ 2 + r2 1 ^ 2 + r2 2 ^ 2 = 1 := by
      rw [hr2, hr2, hr2, ← hc2]; simp only [lenSq]; ring
    obtain ⟨m, hm⟩ : ∃ m, m = a 1 0 * r2 0 + a 1 1 * r2 1 + a 1 2 * r2 2 := ⟨_, rfl⟩
    obtain ⟨w, hw⟩ : ∃ w : Vec ℝ 3, w = fun i => a 1 i - m * r2 i := ⟨_, rfl⟩
    have hw : ∀ i, w i = a 1 i - m * r2 i := fun i => by rw [hw]
    have h1 : lenSq w ≠ 0 := by
      intro h
      have h' := zero _ h
      have ha1 : ∀ i, a 1 i = m * (c2 * a 2 i) := fun i => by
        have := h' i
        rw [hw, hr2] at this
        linarith
      apply ha
      rw [hd]
      simp only [dotProduct, Fin.sum_univ_three, cross, Matrix.cons_val, ha1]
      ring
    obtain ⟨c1, hc1⟩ := inv _ h1
    obtain ⟨r1, hr1⟩ : ∃ r1 : Vec ℝ 3, r1 = fun i => c1 * w i := ⟨_, rfl⟩
    have hr1 : ∀ i, r1 i = c1 * w i := fun i => by rw [hr1]
    have n1 : r1 0 ^ 2 + r1 1 ^ 2 + r1 2 ^ 2 = 1 := by
      rw [hr1, hr1, hr1, ← hc1]; simp only [lenSq]; ring
    have o : r1 0 * r2 0 + r1 1 * r2 1 + r1 2 * r2 2 = 0 := by
      rw [hr1, hr1, hr1, hw, hw, hw]
      linear_combination -c1 * hm - c1 * m * n2
    have c1ne : c1 ≠ 0 := fun h => by rw [h] at hc1; simp at hc1
    have c2ne : c2 ≠ 0 := fun h => by rw [h] at hc2; simp at hc2
    obtain ⟨R, hR⟩ : ∃ R : Mat ℝ 3 3, R = Matrix.of ![cross r1 r2, r1, r2] := ⟨_, rfl⟩
    have hRR : R * Rᵀ = 1 := by
      rw [hR]
      ext i j
      rw [Matrix.mul_apply, Fin.sum_univ_three]
      fin_cases i <;> fin_cases j
      all_goals
        simp [cross]
      · linear_combination (r2 0 ^ 2 + r2 1 ^ 2 + r2 2 ^ 2) * n1 + n2 - (r1 0 * r2 0 + r1 1 * r2 1 + r1 2 * r2 2) * o
      · ring
      · ring
      · ring
      · linear_combination n1
      · linear_combination o
      · ring
      · linear_combination o
      · linear_combination n2
    have hup : upper (a * Rᵀ) = a * Rᵀ := by
      have a2 : ∀ i, a 2 i = r2 i / c2 := fun i => by rw [hr2]; field_simp
      have a1 : ∀ i, a 1 i = r1 i / c1 + m * r2 i := fun i => by
        rw [hr1]
        have := hw i
        field_simp
        linarith
      have e10 : (a * Rᵀ) 1 0 = 0 := by
        rw [Matrix.mul_apply, Fin.sum_univ_three, hR, a1, a1, a1]
        simp [cross]
        ring
      have e20 : (a * Rᵀ) 2 0 = 0 := by
        rw [Matrix.mul_apply, Fin.sum_univ_three, hR, a2, a2, a2]
        simp [cross]
        ring
      have e21 : (a * Rᵀ) 2 1 = 0 := by
        rw [Matrix.mul_apply, Fin.sum_univ_three, hR, a2, a2, a2]
        simp
        linear_combination o / c2
      ext i j
      fin_cases i <;> fin_cases j <;> simp [upper, e10, e20, e21]
    refine ⟨(a * Rᵀ, R), fun _ => ⟨?_, hRR⟩⟩
    rw [hup, Matrix.mul_assoc, mul_eq_one_comm.mp hRR, Matrix.mul_one]
  exact ⟨fun a => (key a).choose, fun a => (key a).choose_spec⟩

/-- **C59** (refuted for other matrices) The translation is not scaled: the parts of twice a camera matrix, which has the same
images, give other images. -/
theorem C59_recompose_refuted : ∃ (rq : Mat ℝ 3 3 → Mat ℝ 3 3 × Mat ℝ 3 3) (p : Mat ℝ 3 4) (x : Vec ℝ 3),
    (∀ a, a.det ≠ 0 → IsRQ a (rq a)) ∧ (left3 p).det ≠ 0 ∧
    dehom (camMul (compose (decompose rq p)) x) ≠ dehom (camMul p x) := by
  obtain ⟨rq, hrq⟩ := exists_rq
  have hv : viewLength !![2, 0, 0, 2; 0, 2, 0, 0; 0, 0, 2, 2] = 2 := by
    unfold viewLength
    rw [Real.sqrt_eq_iff_mul_self_eq (by positivity) (by norm_num)]
    simp
    norm_num
  have hdet : (left3 !![2, 0, 0, 2; 0, 2, 0, 0; 0, 0, 2, 2]).det ≠ 0 := by
    simp [left3, Matrix.det_fin_three]
  refine ⟨rq, !![2, 0, 0, 2; 0, 2, 0, 0; 0, 0, 2, 2], ![0, 0, 1], hrq, hdet, ?_⟩
  obtain ⟨-, -, h3, h4⟩ := C59_decompose_partial rq hrq _ hdet _ rfl
  have e : ∀ i j, compose (decompose rq !![2, 0, 0, 2; 0, 2, 0, 0; 0, 0, 2, 2]) i j =
      (!![1, 0, 0, 2; 0, 1, 0, 0; 0, 0, 1, 2] : Mat ℝ 3 4) i j := by
    intro i j
    simp only [compose, h3, h4, hv]
    fin_cases i <;> fin_cases j <;> simp [Fin.snoc, left3]
  have e : compose (decompose rq !![2, 0, 0, 2; 0, 2, 0, 0; 0, 0, 2, 2]) = !![1, 0, 0, 2; 0, 1, 0, 0; 0, 0, 1, 2] := by
    ext i j
    exact e i j
  rw [e]
  intro h
  have := congrFun h 0
  simp [dehom, camMul, mulVec, dotProduct, Fin.sum_univ_four] at this
  norm_num at this

/-- Non-vacuity: the hypotheses on the matrix. -/
example : (left3 !![500, 3, 320, 0; 0, 500, 240, 1; 0, 0, 1, 2]).det ≠ 0 ∧
    viewLength !![500, 3, 320, 0; 0, 500, 240, 1; 0, 0, 1, 2] = 1 := by
  constructor
  · simp [left3, Matrix.det_fin_three]
  · simp [viewLength]

end Ubitrack.ProjectionMatrix

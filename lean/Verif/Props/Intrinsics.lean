import Verif.Model.Intrinsics
import Verif.Spec.Intrinsics
import Mathlib.Tactic.FieldSimp
import Mathlib.Tactic.Positivity
import Mathlib.Tactic.Linarith
import Mathlib.Tactic.FinCases
import Mathlib.Tactic.IntervalCases

/-! # Camera intrinsics as objects -/

namespace Ubitrack.Intrinsics

open Spec

section field

variable {K : Type*} [Field K]

theorem loadRadial_spec (r c : Vec K 6) (rest : List (Item K)) : ∀ (k i : ℕ) (_h : i + k ≤ 6) (r : Vec K 6),
    loadRadial r i k ((List.finRange k).map (fun j => Item.num (c ⟨i + j.val, by omega⟩)) ++ rest) =
      some (fun a => if i ≤ a.val ∧ a.val < i + k then c a else r a, rest) := by
  intro k
  induction k with
  | zero =>
    intro i _ r
    simp only [loadRadial, List.finRange_zero, List.map_nil, List.nil_append, Option.some.injEq, Prod.mk.injEq, and_true]
    funext a
    rw [if_neg (by omega)]
  | succ k ih =>
    intro i h r
    rw [List.finRange_succ]
    simp only [List.map_cons, List.cons_append, loadRadial, getNum, List.map_map]
    rw [dif_pos (by omega)]
    have := ih (i + 1) (by omega) (Function.update r ⟨i, by omega⟩ (c ⟨i, by omega⟩))
    have e : ((fun j : Fin (k + 1) => Item.num (c ⟨i + j.val, by omega⟩)) ∘ Fin.succ) =
        fun j : Fin k => Item.num (c ⟨i + 1 + j.val, by omega⟩) := by
      funext j
      simp only [Function.comp, Fin.val_succ]
      congr 3
      omega
    rw [e]
    change loadRadial (Function.update r ⟨i, _⟩ (c ⟨i, _⟩)) (i + 1) k _ = _
    rw [this]
    refine congrArg some (Prod.ext ?_ rfl)
    funext a
    simp only
    by_cases ha : a.val = i
    · subst ha
      simp
    · rw [Function.update_of_ne (fun h => ha (by rw [h]))]
      by_cases hb : i + 1 ≤ a.val ∧ a.val < i + 1 + k
      · rw [if_pos hb, if_pos (by omega)]
      · rw [if_neg hb, if_neg (by omega)]

theorem loadMatrix_fold (f : Fin 9 → K) (rest : List (Item K)) (l : List (Fin 9)) : ∀ m : Mat K 3 3,
    loadMatrix m l (l.map (fun i => Item.num (f i)) ++ rest) =
      some (l.foldl (fun m i => fun a b => if a.val = i.val / 3 ∧ b.val = i.val % 3 then f i else m a b) m, rest) := by
  induction l with
  | nil => intro m; rfl
  | cons i l ih => intro m; exact ih _

theorem loadMatrix_spec (m c : Mat K 3 3) (rest : List (Item K)) :
    loadMatrix m (List.finRange 9)
      ((List.finRange 9).map (fun i => Item.num (c ⟨i.val / 3, by omega⟩ ⟨i.val % 3, by omega⟩)) ++ rest) =
      some (c, rest) := by
  rw [loadMatrix_fold (fun i : Fin 9 => c ⟨i.val / 3, by omega⟩ ⟨i.val % 3, by omega⟩)]
  refine congrArg some (Prod.ext ?_ rfl)
  funext a b
  fin_cases a <;> fin_cases b <;> rfl

/-- **C75.** What is saved can be loaded into any object `d`: everything of the saved camera comes back, except that the
radial parameters beyond the number in use, and a type that does not follow from this number, stay those of `d`; nothing of
what follows in the archive is consumed. -/
theorem C75_load (c d : CameraIntrinsics K) (s : List (Item K)) (after : CameraIntrinsics K) (rest : List (Item K))
    (h : save c = some (s, after)) :
    load d (s ++ rest) = some (reset ⟨d.calibType, c.dimension, c.matrix, c.radialSize,
      fun i => if i.val < c.radialSize then c.radialParams i else d.radialParams i, c.tangentialParams⟩, rest) := by
  unfold save at h
  split at h
  case isFalse => simp at h
  case isTrue h6 =>
    simp only [Option.some.injEq, Prod.mk.injEq] at h
    obtain ⟨rfl, -⟩ := h
    unfold load
    simp only [List.append_assoc]
    rw [loadMatrix_spec]
    simp only [Option.bind_eq_bind, Option.bind_some, List.cons_append, List.nil_append, getSize]
    have := loadRadial_spec d.radialParams c.radialParams (Item.size 2 :: .num (c.tangentialParams 0) ::
      .num (c.tangentialParams 1) :: rest) c.radialSize 0 (by omega) d.radialParams
    have e : (fun j : Fin c.radialSize => Item.num (c.radialParams ⟨0 + j.val, by omega⟩)) =
        fun i => Item.num (c.radialParams (i.castLE h6)) := by
      funext j
      congr 2
      exact Fin.ext (by simp)
    rw [e] at this
    rw [this]
    simp only [Option.bind_some, getNum]
    refine congrArg some (Prod.ext (congrArg reset ?_) rfl)
    ext i
    · rfl
    · fin_cases i <;> rfl
    · rfl
    · rfl
    · simp
    · fin_cases i <;> rfl

theorem reset_of_consistent {c : CameraIntrinsics K} (h : Consistent c) (t : ℕ) : reset { c with calibType := t } = c := by
  obtain ⟨h, -⟩ := h
  rcases c with ⟨ct, dim, m, rs, rp, tp⟩
  rcases h with ⟨h1, h2⟩ | ⟨h1, h2⟩ | ⟨h1, h2⟩ | ⟨h1, h2⟩ <;> simp only at h1 h2 <;> subst h1 h2 <;> rfl

/-- **C75.** A consistent camera can be saved, is not changed by it, and loading the archive into a new object gives the same
camera. -/
theorem C75_roundtrip (c : CameraIntrinsics K) (hc : Consistent c) :
    ∃ s, save c = some (s, c) ∧ ∀ rest, load default (s ++ rest) = some (c, rest) := by
  have h6 : c.radialSize ≤ 6 := by
    rcases hc.type with h | h | h | h <;> omega
  have hs : ∃ s, save c = some (s, c) := by
    have e : reset c = c := reset_of_consistent hc c.calibType
    rw [save, dif_pos h6, e]
    exact ⟨_, rfl⟩
  obtain ⟨s, hs⟩ := hs
  refine ⟨s, hs, fun rest => ?_⟩
  rw [C75_load c default s c rest hs]
  refine congrArg some (Prod.ext ?_ rfl)
  have e : (fun i : Fin 6 => if i.val < c.radialSize then c.radialParams i else (default : CameraIntrinsics K).radialParams i) =
      c.radialParams := by
    funext i
    split
    · rfl
    · rw [hc.unused i (by omega)]
      rfl
  simp only [e]
  exact reset_of_consistent hc _

/-- **C75.** The constructors with two and six parameters make consistent cameras, and so does the general one when the number
is two, three, four or six and the unused parameters are zero. -/
theorem C75_constructors (m : Mat K 3 3) (r2 : Vec K 2) (r6 : Vec K 6) (t : Vec K 2) (w h n : ℕ) (size : Vec ℤ 2)
    (hn : n = 2 ∨ n = 3 ∨ n = 4 ∨ n = 6) (hr : ∀ i : Fin 6, n ≤ i.val → r6 i = 0) :
    Consistent (ofRadial2 m r2 t w h) ∧ Consistent (ofRadial6 m r6 t w h) ∧ Consistent (ofGeneral size m n r6 t w h) ∧
      ∀ c ∈ [ofRadial2 m r2 t w h, ofRadial6 m r6 t w h, ofGeneral size m n r6 t w h],
        radial c.calibType = some c.radialSize := by
  refine ⟨⟨by simp [ofRadial2, OPENCV_2_2], fun i hi => ?_⟩, ⟨by simp [ofRadial6, OPENCV_6_2], fun i hi => ?_⟩, ?_, ?_⟩
  · simp only [ofRadial2] at hi
    fin_cases i <;> first | rfl | (simp at hi)
  · simp only [ofRadial6] at hi
    omega
  · rcases hn with rfl | rfl | rfl | rfl <;> exact ⟨by simp [ofGeneral, reset, OPENCV_2_2, OPENCV_3_2, OPENCV_4_0_FISHEYE,
      OPENCV_6_2], by simpa [ofGeneral, reset] using hr⟩
  · intro c hc
    simp only [List.mem_cons, List.not_mem_nil, or_false] at hc
    rcases hc with rfl | rfl | rfl
    · rfl
    · rfl
    · rcases hn with rfl | rfl | rfl | rfl <;> rfl

/-- **C75.** For the type that a constructor records, the numbers of radial and tangential parameters of this type are those of the constructor's arguments:
`a` radial and `b` tangential ones, none of the latter for a fish-eye camera. -/
theorem C75_parameters (memory : Vec K 6) (m : Mat K 3 3) (r2 : Vec K 2) (r3 : Vec K 3) (r4 : Vec K 4) (r6 : Vec K 6) (t : Vec K 2) (w h : ℕ) :
    ∀ x ∈ [(ofRadial2 m r2 t w h, 2, 2), (ofRadial3 m r3 t w h, 3, 2), (ofRadial6 m r6 t w h, 6, 2), (ofFisheye memory m r4 w h, 4, 0)],
      radial x.1.calibType = some x.2.1 ∧ tangential x.1.calibType = some x.2.2 := by
  intro x hx
  fin_cases hx <;> exact ⟨rfl, rfl⟩

/-- **C75.** What a constructor is given is what the camera has: image size, matrix, radial parameters (the others are zero, except for a fish-eye camera) and
tangential parameters. -/
theorem C75_stored (memory : Vec K 6) (m : Mat K 3 3) (r2 : Vec K 2) (r3 : Vec K 3) (r4 : Vec K 4) (r6 : Vec K 6) (t : Vec K 2) (w h : ℕ) :
    (∀ c ∈ [ofRadial2 m r2 t w h, ofRadial3 m r3 t w h, ofRadial6 m r6 t w h, ofFisheye memory m r4 w h], c.matrix = m ∧ c.dimension = ![w, h]) ∧
    (∀ c ∈ [ofRadial2 m r2 t w h, ofRadial3 m r3 t w h, ofRadial6 m r6 t w h], c.tangentialParams = t) ∧ (ofFisheye memory m r4 w h).tangentialParams = 0 ∧
    (∀ i : Fin 6, (ofRadial2 m r2 t w h).radialParams i = if hi : i.val < 2 then r2 ⟨i, hi⟩ else 0) ∧
    (∀ i : Fin 6, (ofRadial3 m r3 t w h).radialParams i = if hi : i.val < 3 then r3 ⟨i, hi⟩ else 0) ∧
    (ofRadial6 m r6 t w h).radialParams = r6 ∧
    ∀ i : Fin 4, (ofFisheye memory m r4 w h).radialParams (i.castLE (by omega)) = r4 i := by
  refine ⟨?_, ?_, rfl, ?_, ?_, rfl, ?_⟩
  · intro c hc
    fin_cases hc <;> exact ⟨rfl, rfl⟩
  · intro c hc
    fin_cases hc <;> rfl
  · intro i
    fin_cases i <;> rfl
  · intro i
    fin_cases i <;> rfl
  · intro i
    fin_cases i <;> rfl

/-- **C75, refuted.** The constructor with three radial parameters records only two: the type says three, the size says two;
saving the camera changes its type, and whatever the third parameter is, it is lost in the archive. -/
theorem C75_three_parameters_refuted (m : Mat K 3 3) (r : Vec K 3) (t : Vec K 2) (w h : ℕ) :
    let c := ofRadial3 m r t w h
    radial c.calibType ≠ some c.radialSize ∧
    (∃ s after, save c = some (s, after) ∧ after.calibType ≠ c.calibType ∧
      load default s = some (ofRadial2 m ![r 0, r 1] t w h, [])) := by
  intro c
  refine ⟨by simp [c, ofRadial3, radial, OPENCV_3_2], _, _, rfl, by simp [c, ofRadial3, reset, OPENCV_2_2, OPENCV_3_2], ?_⟩
  rw [show ∀ s : List (Item K), load default s = load default (s ++ []) by simp, C75_load c default _ _ [] rfl]
  refine congrArg some (Prod.ext ?_ rfl)
  have e : (fun i : Fin 6 => if i.val < c.radialSize then c.radialParams i else
      (default : CameraIntrinsics K).radialParams i) = ![r 0, r 1, 0, 0, 0, 0] := by
    funext i
    fin_cases i <;> rfl
  simp only [e]
  rfl

/-- **C75, refuted.** A fish-eye camera is not determined by the arguments of its constructor: two of its parameters are
whatever was in memory. -/
theorem C75_fisheye_refuted (m : Mat K 3 3) (r : Vec K 4) (w h : ℕ) :
    ∃ memory memory', ofFisheye memory m r w h ≠ ofFisheye memory' m r w h := by
  refine ⟨0, fun _ => 1, fun h => ?_⟩
  have := congrFun (congrArg CameraIntrinsics.radialParams h) 4
  exact zero_ne_one (α := K) this

/-- **C75, refuted.** Loading into an object that was in use does not give the saved camera: a two-parameter camera loaded
over a six-parameter one keeps four of the old parameters. -/
theorem C75_reload_refuted : ∃ (c d : CameraIntrinsics K) (s : List (Item K)), Consistent c ∧ Consistent d ∧
    save c = some (s, c) ∧ load d s ≠ some (c, []) := by
  refine ⟨ofRadial2 1 0 0 640 480, ofRadial6 1 (fun _ => 1) 0 640 480, _,
    (C75_constructors 1 0 0 0 640 480 2 0 (by simp) (by simp)).1,
    ⟨by simp [ofRadial6, OPENCV_6_2], fun i hi => by simp only [ofRadial6] at hi; omega⟩, rfl, fun h => ?_⟩
  rw [show ∀ (d : CameraIntrinsics K) (s : List (Item K)), load d s = load d (s ++ []) by simp,
    C75_load (ofRadial2 1 0 0 640 480) _ _ _ [] rfl] at h
  have := congrFun (congrArg CameraIntrinsics.radialParams (congrArg Prod.fst (Option.some.inj h))) 5
  exact one_ne_zero (α := K) this

omit [Field K] in
/-- **C75, refuted.** The general constructor ignores the image size it is given. -/
theorem C75_size_refuted (m : Mat K 3 3) (r : Vec K 6) (t : Vec K 2) (n : ℕ) (size : Vec ℤ 2) :
    (ofGeneral size m n r t 0 0).dimension = ![0, 0] := by
  simp only [ofGeneral, reset]
  repeat' split
  all_goals rfl

/-- **C75.** Flipping the handedness of the matrix is the same as flipping the viewing direction of the points: the flipped
matrix maps the mirrored point to the same homogeneous pixel. Flipping twice changes nothing, and nothing else of the camera is
touched. -/
theorem C75_flip (c : CameraIntrinsics K) (p : Vec K 3) :
    (flipHandiness c).matrix.mulVec ![p 0, p 1, -p 2] = c.matrix.mulVec p ∧ flipHandiness (flipHandiness c) = c ∧
      ({ flipHandiness c with matrix := c.matrix } : CameraIntrinsics K) = c := by
  refine ⟨?_, ?_, rfl⟩
  · funext i
    simp only [Matrix.mulVec, dotProduct, Fin.sum_univ_three, flipHandiness]
    simp
  · rcases c with ⟨_, _, m, _, _, _⟩
    unfold flipHandiness
    congr 1
    funext i j
    by_cases hj : j = 2 <;> simp [hj]

end field

theorem two_arctan {x : ℝ} (hx : 0 ≤ x) : Real.arccos ((1 - x ^ 2) / (1 + x ^ 2)) = 2 * Real.arctan x := by
  have h0 := Real.arctan_nonneg.mpr hx
  have h1 := Real.arctan_lt_pi_div_two x
  rw [← Real.arccos_cos (by linarith : 0 ≤ 2 * Real.arctan x) (by linarith)]
  congr 1
  rw [Real.cos_two_mul, Real.cos_sq_arctan]
  have : 1 + x ^ 2 ≠ 0 := by positivity
  field_simp
  ring

/-- The angle between the rays of opposite points of the image. -/
theorem degrees_opposite (f0 f1 u v : ℝ) :
    degrees (ray f0 f1 (-u) (-v)) (ray f0 f1 u v) =
      360 / Real.pi * Real.arctan (Real.sqrt ((u / f0) ^ 2 + (v / f1) ^ 2)) := by
  have hs : 0 ≤ (u / f0) ^ 2 + (v / f1) ^ 2 := by positivity
  have hn : ∀ a b : ℝ, ‖(!₂[a, b, 1] : EuclideanSpace ℝ (Fin 3))‖ = Real.sqrt (a ^ 2 + b ^ 2 + 1) := by
    intro a b
    rw [EuclideanSpace.norm_eq]
    simp [Fin.sum_univ_three]
  have hi : inner ℝ (!₂[-u / f0, -v / f1, 1] : EuclideanSpace ℝ (Fin 3)) !₂[u / f0, v / f1, 1] =
      1 - ((u / f0) ^ 2 + (v / f1) ^ 2) := by
    rw [PiLp.inner_apply]
    simp [Fin.sum_univ_three]
    ring
  have hp : 0 ≤ (u / f0) ^ 2 + (v / f1) ^ 2 + 1 := by positivity
  have key : InnerProductGeometry.angle (ray f0 f1 (-u) (-v)) (ray f0 f1 u v) =
      2 * Real.arctan (Real.sqrt ((u / f0) ^ 2 + (v / f1) ^ 2)) := by
    rw [← two_arctan (Real.sqrt_nonneg _), Real.sq_sqrt hs]
    unfold InnerProductGeometry.angle ray
    rw [hi, hn, hn]
    congr 2
    rw [show (-u / f0) ^ 2 + (-v / f1) ^ 2 + 1 = (u / f0) ^ 2 + (v / f1) ^ 2 + 1 by ring, Real.mul_self_sqrt hp]
    ring
  unfold degrees
  rw [key]
  ring

/-- **C75.** The opening angles are the angles between the rays through the left and right, and the upper and lower, border of
the image, in degrees. -/
theorem C75_angles (c : CameraIntrinsics ℝ) (h0 : 0 < c.matrix 0 0) (h1 : 0 < c.matrix 1 1) :
    angleHorizontal c = degrees (ray (c.matrix 0 0) (c.matrix 1 1) (-(c.dimension 0 / 2)) 0)
      (ray (c.matrix 0 0) (c.matrix 1 1) (c.dimension 0 / 2) 0) ∧
    angleVertical c = degrees (ray (c.matrix 0 0) (c.matrix 1 1) 0 (-(c.dimension 1 / 2)))
      (ray (c.matrix 0 0) (c.matrix 1 1) 0 (c.dimension 1 / 2)) := by
  have a := degrees_opposite (c.matrix 0 0) (c.matrix 1 1) (c.dimension 0 / 2) 0
  have b := degrees_opposite (c.matrix 0 0) (c.matrix 1 1) 0 (c.dimension 1 / 2)
  rw [neg_zero] at a b
  rw [a, b]
  unfold angleHorizontal angleVertical
  rw [Real.arccos_neg_one]
  constructor
  · rw [zero_div, zero_pow two_ne_zero, add_zero, Real.sqrt_sq (by positivity)]
    congr 2
    field_simp
  · rw [zero_div, zero_pow two_ne_zero, zero_add, Real.sqrt_sq (by positivity)]
    congr 2
    field_simp

/-- **C75, refuted.** The diagonal opening angle is too small for every camera with positive focal lengths and image size:
the angle between the rays through opposite corners is larger. -/
theorem C75_diagonal_refuted (c : CameraIntrinsics ℝ) (h0 : 0 < c.matrix 0 0) (h1 : 0 < c.matrix 1 1)
    (hw : 0 < c.dimension 0) (hh : 0 < c.dimension 1) :
    angleDiagonal c < degrees
      (ray (c.matrix 0 0) (c.matrix 1 1) (-(c.dimension 0 / 2)) (-(c.dimension 1 / 2)))
      (ray (c.matrix 0 0) (c.matrix 1 1) (c.dimension 0 / 2) (c.dimension 1 / 2)) := by
  rw [degrees_opposite]
  unfold angleDiagonal
  rw [Real.arccos_neg_one]
  simp only
  have hw' : (0 : ℝ) < c.dimension 0 := by exact_mod_cast hw
  have hh' : (0 : ℝ) < c.dimension 1 := by exact_mod_cast hh
  push_cast
  generalize (c.dimension 0 : ℝ) = w at *
  generalize (c.dimension 1 : ℝ) = h at *
  generalize c.matrix 0 0 = f at *
  generalize c.matrix 1 1 = g at *
  refine mul_lt_mul_of_pos_left (Real.arctan_strictMono (Real.sqrt_lt_sqrt (by positivity) ?_)) (by positivity)
  rw [show (w / 2 / f) ^ 2 + (h / 2 / g) ^ 2 = (w * w / (f * f) + h * h / (g * g)) / 4 by field_simp; norm_num,
    show (w * w + h * h) / (4 * (f * f + g * g)) = (w * w / (f * f + g * g) + h * h / (f * f + g * g)) / 4 by
      field_simp]
  have a : w * w / (f * f + g * g) < w * w / (f * f) := by
    apply div_lt_div_of_pos_left <;> nlinarith [mul_pos h0 h0, mul_pos h1 h1, mul_pos hw' hw']
  have b : h * h / (f * f + g * g) < h * h / (g * g) := by
    apply div_lt_div_of_pos_left <;> nlinarith [mul_pos h0 h0, mul_pos h1 h1, mul_pos hh' hh']
  linarith

/-- **C75.** A camera created without arguments has unit intrinsics: its matrix maps every ray to itself, all distortion
parameters are zero, its image size is zero and its type is unknown. -/
theorem C75_default : (∀ p : Vec ℝ 3, (default : CameraIntrinsics ℝ).matrix.mulVec p = p) ∧
    (∀ i, (default : CameraIntrinsics ℝ).radialParams i = 0) ∧
    (∀ i, (default : CameraIntrinsics ℝ).tangentialParams i = 0) ∧
    (default : CameraIntrinsics ℝ).dimension 0 = 0 ∧ (default : CameraIntrinsics ℝ).dimension 1 = 0 ∧
    (default : CameraIntrinsics ℝ).radialSize = 0 ∧ (default : CameraIntrinsics ℝ).calibType = 0 :=
  ⟨fun p => Matrix.one_mulVec p, fun _ => rfl, fun _ => rfl, rfl, rfl, rfl, rfl⟩

/-- A camera as in the theorems: 640 x 480 pixels, focal length 500. -/
example : ∃ c : CameraIntrinsics ℝ, Consistent c ∧ 0 < c.matrix 0 0 ∧ 0 < c.matrix 1 1 ∧ 0 < c.dimension 0 ∧
    0 < c.dimension 1 ∧ c.radialParams 1 ≠ 0 :=
  ⟨ofRadial2 (Matrix.of ![![500, 0, -320], ![0, 500, -240], ![0, 0, -1]]) ![-0.1, 0.01] ![0, 0.001] 640 480,
    (C75_constructors _ _ 0 _ _ _ 2 0 (by simp) (by simp)).1, by simp [ofRadial2], by simp [ofRadial2], by simp [ofRadial2],
    by simp [ofRadial2], by norm_num [ofRadial2]⟩

end Ubitrack.Intrinsics

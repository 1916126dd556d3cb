import Verif.Spec.ImageLookup
import Mathlib.Topology.Algebra.Order.Group
import Mathlib.Topology.Instances.Real.Lemmas
import Mathlib.Analysis.Calculus.Deriv.Add
import Mathlib.Analysis.Calculus.Deriv.Mul
import Mathlib.Tactic.Linarith
import Mathlib.Tactic.Ring
import Mathlib.Tactic.FieldSimp

/-!
# C84: interpolated pixels of an image
-/

namespace Ubitrack.ImageLookup

open Spec

theorem floorInt_some {v : ℝ} (h : -2 ^ 31 ≤ v ∧ v < 2 ^ 31) : floorInt v = some ⌊v⌋ := by
  unfold floorInt
  rw [if_pos]
  constructor
  · rw [Int.le_floor]; push_cast; linarith [h.1]
  · rw [Int.floor_lt]; push_cast; linarith [h.2]

theorem read_pixel {image : Image} {w h : ℕ} {pic : ℕ → ℕ → ℝ} (hs : Shows image w h pic) (x y : ℕ) (hx : x < w) (hy : y < h) :
    image.read (y * image.widthStep + x) = some (pic x y) := by
  unfold Image.read
  have h0 := hs.step
  have h1 : (0 : ℤ) ≤ y * image.widthStep + x := by positivity
  rw [if_neg (by omega)]
  have e : (y * image.widthStep + x : ℤ).toNat = y * image.widthStep.toNat + x := by
    obtain ⟨s, hs⟩ := Int.eq_ofNat_of_zero_le h0
    rw [hs]
    simp only [Int.toNat_natCast]
    exact_mod_cast Int.toNat_natCast (y * s + x)
  rw [e]
  exact hs.pixel x y hx hy

theorem tent_sum (f : ℕ → ℝ) (w n : ℕ) (hn : n + 1 < w) (d : ℝ) (hd0 : 0 ≤ d) (hd1 : d < 1) :
    ∑ i ∈ Finset.range w, tent (n + d - i) * f i = (1 - d) * f n + d * f (n + 1) := by
  rw [← Finset.sum_subset (s₁ := {n, n + 1})]
  · rw [Finset.sum_pair (by omega)]
    have e1 : tent (n + d - n) = 1 - d := by
      unfold tent
      rw [show (n + d - n : ℝ) = d by ring, abs_of_nonneg hd0, max_eq_right (by linarith)]
    have e2 : tent (n + d - (n + 1 : ℕ)) = d := by
      unfold tent
      push_cast
      rw [show (n + d - (n + 1) : ℝ) = -(1 - d) by ring, abs_neg, abs_of_nonneg (by linarith), max_eq_right (by linarith)]
      ring
    rw [e1, e2]
  · intro i hi
    simp only [Finset.mem_insert, Finset.mem_singleton] at hi
    simp only [Finset.mem_range]
    omega
  · intro i _ hi
    simp only [Finset.mem_insert, Finset.mem_singleton, not_or] at hi
    have : tent (n + d - i) = 0 := by
      unfold tent
      refine max_eq_left ?_
      rcases lt_trichotomy i n with h | h | h
      · have : (i : ℝ) + 1 ≤ n := by exact_mod_cast h
        rw [abs_of_nonneg (by linarith)]
        linarith
      · exact absurd h hi.1
      · have : (n : ℝ) + 2 ≤ i := by
          have : n + 2 ≤ i := by omega
          exact_mod_cast this
        rw [abs_of_nonpos (by linarith)]
        linarith
    rw [this, zero_mul]

/-- A coordinate inside, as a pixel and an offset. -/
theorem inside_split {w : ℕ} {v : ℝ} (hw : w < 2 ^ 31) (h0 : 0 ≤ v) (h1 : v < w - 1) :
    ∃ n : ℕ, ⌊v⌋ = n ∧ n + 1 < w ∧ floorInt v = some (n : ℤ) ∧ 0 ≤ v - n ∧ v - n < 1 := by
  have hf : 0 ≤ ⌊v⌋ := Int.floor_nonneg.mpr h0
  obtain ⟨n, hn⟩ := Int.eq_ofNat_of_zero_le hf
  have hle : (n : ℝ) ≤ v := by
    have := Int.floor_le v
    rw [hn] at this
    exact_mod_cast this
  have hlt : v < n + 1 := by
    have := Int.lt_floor_add_one v
    rw [hn] at this
    exact_mod_cast this
  refine ⟨n, hn, ?_, ?_, by linarith, by linarith⟩
  · have : (n : ℝ) + 1 < w := by linarith
    exact_mod_cast this
  · rw [floorInt_some, hn]
    · have : (w : ℝ) < 2 ^ 31 := by exact_mod_cast hw
      constructor
      · have : (0 : ℝ) ≤ 2 ^ 31 := by positivity
        linarith
      · linarith

/-- **C84** Inside the image the value is the bilinear interpolation of the picture. -/
theorem C84_bilinear (image : Image) (w h : ℕ) (pic : ℕ → ℕ → ℝ) (hs : Shows image w h pic) (p : Vec ℝ 2) (hp : Inside w h p) :
    evaluate image p = some (bilinear w h pic p) := by
  obtain ⟨x, hx, hxw, hxf, hx0, hx1⟩ := inside_split hs.width_int hp.1.1 hp.1.2
  obtain ⟨y, hy, hyh, hyf, hy0, hy1⟩ := inside_split hs.height_int hp.2.1 hp.2.2
  unfold evaluate
  simp only [hxf, hyf, Option.bind_eq_bind, Option.bind_some]
  rw [if_neg (by rw [hs.width, hs.height]; omega)]
  have r00 := read_pixel hs x y (by omega) (by omega)
  have r10 := read_pixel hs (x + 1) y (by omega) (by omega)
  have r01 := read_pixel hs x (y + 1) (by omega) (by omega)
  have r11 := read_pixel hs (x + 1) (y + 1) (by omega) (by omega)
  have e10 : (y : ℤ) * image.widthStep + x + 1 = y * image.widthStep + (x + 1 : ℕ) := by push_cast; ring
  have e01 : (y : ℤ) * image.widthStep + x + image.widthStep = (y + 1 : ℕ) * image.widthStep + x := by push_cast; ring
  have e11 : ((y + 1 : ℕ) : ℤ) * image.widthStep + x + 1 = (y + 1 : ℕ) * image.widthStep + (x + 1 : ℕ) := by push_cast; ring
  simp only [e01, e10, e11, r00, r10, r01, r11, Option.bind_some, Option.pure_def, Option.some.injEq]
  have key : bilinear w h pic p = ∑ j ∈ Finset.range h, tent (y + (p 1 - y) - j) *
      ∑ i ∈ Finset.range w, tent (x + (p 0 - x) - i) * pic i j := by
    unfold bilinear
    refine Finset.sum_congr rfl fun j _ => ?_
    rw [Finset.mul_sum]
    refine Finset.sum_congr rfl fun i _ => ?_
    rw [show (x + (p 0 - x) - i : ℝ) = p 0 - i by ring, show (y + (p 1 - y) - j : ℝ) = p 1 - j by ring]
    ring
  rw [key, tent_sum (fun j => ∑ i ∈ Finset.range w, tent (x + (p 0 - x) - i) * pic i j) h y hyh _ hy0 hy1]
  simp only [tent_sum (fun i => pic i _) w x hxw _ hx0 hx1, Int.cast_natCast]
  ring

/-- **C84** At the pixels inside, the value is the pixel. -/
theorem C84_pixel (image : Image) (w h : ℕ) (pic : ℕ → ℕ → ℝ) (hs : Shows image w h pic) (x y : ℕ) (hx : x + 1 < w) (hy : y + 1 < h) :
    evaluate image ![x, y] = some (pic x y) := by
  have hx' : (x : ℝ) + 1 < w := by exact_mod_cast hx
  have hy' : (y : ℝ) + 1 < h := by exact_mod_cast hy
  rw [C84_bilinear image w h pic hs _ ⟨⟨by simp, by simp; linarith⟩, ⟨by simp, by simp; linarith⟩⟩]
  have e1 := tent_sum (fun j => ∑ i ∈ Finset.range w, tent (x + 0 - i) * pic i j) h y hy 0 le_rfl one_pos
  have e2 := tent_sum (fun i => pic i y) w x hx 0 le_rfl one_pos
  simp only [sub_zero, one_mul, zero_mul, add_zero] at e1 e2
  rw [← e2, ← e1]
  unfold bilinear
  simp only [Matrix.cons_val_zero, Matrix.cons_val_one, Finset.mul_sum]
  refine congrArg some (Finset.sum_congr rfl fun j _ => Finset.sum_congr rfl fun i _ => ?_)
  ring

/-- **C84** Outside the value is zero (for coordinates that fit into an `int`). -/
theorem C84_outside (image : Image) (w h : ℕ) (pic : ℕ → ℕ → ℝ) (hs : Shows image w h pic) (p : Vec ℝ 2) (hf : FitsInt p)
    (hp : ¬ Inside w h p) : evaluate image p = some 0 := by
  unfold evaluate
  simp only [floorInt_some (hf 0), floorInt_some (hf 1), Option.bind_eq_bind, Option.bind_some]
  rw [if_pos]
  · rfl
  · by_contra hc
    push Not at hc
    obtain ⟨h1, h2, h3, h4⟩ := hc
    refine hp ⟨⟨Int.floor_nonneg.mp h1, ?_⟩, ⟨Int.floor_nonneg.mp h3, ?_⟩⟩
    · rw [hs.width, Int.floor_lt] at h2
      exact_mod_cast h2
    · rw [hs.height, Int.floor_lt] at h4
      exact_mod_cast h4

/-- **C84** No read outside the memory of the image: there is a value for all coordinates that fit into an `int`. -/
theorem C84_defined (image : Image) (w h : ℕ) (pic : ℕ → ℕ → ℝ) (hs : Shows image w h pic) (p : Vec ℝ 2) (hf : FitsInt p) :
    ∃ v, evaluate image p = some v := by
  by_cases hp : Inside w h p
  · exact ⟨_, C84_bilinear image w h pic hs p hp⟩
  · exact ⟨_, C84_outside image w h pic hs p hf hp⟩

theorem tent_nonneg (t : ℝ) : 0 ≤ tent t := le_max_left _ _

theorem bilinear_one {w h : ℕ} {p : Vec ℝ 2} (hw : w < 2 ^ 31) (hh : h < 2 ^ 31) (hp : Inside w h p) : bilinear w h (fun _ _ => 1) p = 1 := by
  obtain ⟨x, hx, hxw, hxf, hx0, hx1⟩ := inside_split hw hp.1.1 hp.1.2
  obtain ⟨y, hy, hyh, hyf, hy0, hy1⟩ := inside_split hh hp.2.1 hp.2.2
  have e1 := tent_sum (fun _ => 1) w x hxw _ hx0 hx1
  have e2 := tent_sum (fun _ => 1) h y hyh _ hy0 hy1
  simp only [add_sub_cancel, mul_one, sub_add_cancel] at e1 e2
  unfold bilinear
  simp only [mul_one, ← Finset.sum_mul, e1, one_mul]
  exact e2

/-- **C84** The value inside is between the smallest and the largest pixel. -/
theorem C84_between (image : Image) (w h : ℕ) (pic : ℕ → ℕ → ℝ) (hs : Shows image w h pic) (p : Vec ℝ 2) (hp : Inside w h p) (lo hi : ℝ)
    (hb : ∀ x y, x < w → y < h → lo ≤ pic x y ∧ pic x y ≤ hi) : ∃ v, evaluate image p = some v ∧ lo ≤ v ∧ v ≤ hi := by
  refine ⟨_, C84_bilinear image w h pic hs p hp, ?_, ?_⟩
  · have e := bilinear_one hs.width_int hs.height_int hp
    calc lo = lo * bilinear w h (fun _ _ => 1) p := by rw [e, mul_one]
      _ ≤ bilinear w h pic p := by
        unfold bilinear
        simp only [Finset.mul_sum]
        refine Finset.sum_le_sum fun y hy => Finset.sum_le_sum fun x hx => ?_
        rw [mul_one, mul_comm]
        exact mul_le_mul_of_nonneg_left (hb x y (Finset.mem_range.mp hx) (Finset.mem_range.mp hy)).1 (mul_nonneg (tent_nonneg _) (tent_nonneg _))
  · have e := bilinear_one hs.width_int hs.height_int hp
    calc bilinear w h pic p ≤ hi * bilinear w h (fun _ _ => 1) p := by
          unfold bilinear
          simp only [Finset.mul_sum]
          refine Finset.sum_le_sum fun y hy => Finset.sum_le_sum fun x hx => ?_
          rw [mul_one, mul_comm hi]
          exact mul_le_mul_of_nonneg_left (hb x y (Finset.mem_range.mp hx) (Finset.mem_range.mp hy)).2 (mul_nonneg (tent_nonneg _) (tent_nonneg _))
      _ = hi := by rw [e, mul_one]

/-- **C84** The value is continuous inside: there is a continuous function on the whole plane that it agrees with. -/
theorem C84_continuous (image : Image) (w h : ℕ) (pic : ℕ → ℕ → ℝ) (hs : Shows image w h pic) :
    ContinuousOn (fun p => (evaluate image p).getD 0) {p | Inside w h p} := by
  have hc : Continuous (bilinear w h pic) := by
    unfold bilinear tent
    fun_prop
  refine hc.continuousOn.congr fun p hp => ?_
  simp only [C84_bilinear image w h pic hs p hp, Option.getD_some]

/-- **C84** A plane is reproduced exactly. -/
theorem C84_plane (image : Image) (w h : ℕ) (a b c : ℝ) (hs : Shows image w h fun x y => a * x + b * y + c) (p : Vec ℝ 2) (hp : Inside w h p) :
    evaluate image p = some (a * p 0 + b * p 1 + c) := by
  rw [C84_bilinear image w h _ hs p hp]
  obtain ⟨x, hx, hxw, hxf, hx0, hx1⟩ := inside_split hs.width_int hp.1.1 hp.1.2
  obtain ⟨y, hy, hyh, hyf, hy0, hy1⟩ := inside_split hs.height_int hp.2.1 hp.2.2
  have e1 := fun j : ℕ => tent_sum (fun i => a * i + b * j + c) w x hxw _ hx0 hx1
  have e2 := tent_sum (fun j => a * p 0 + b * j + c) h y hyh _ hy0 hy1
  simp only [add_sub_cancel] at e1 e2
  have e1' : ∀ j : ℕ, ∑ i ∈ Finset.range w, tent (p 0 - i) * (a * i + b * j + c) = a * p 0 + b * j + c := by
    intro j
    rw [e1]
    push_cast
    ring
  congr 1
  have : bilinear w h (fun x y => a * x + b * y + c) p = ∑ j ∈ Finset.range h, tent (p 1 - j) * (a * p 0 + b * j + c) := by
    unfold bilinear
    refine Finset.sum_congr rfl fun j _ => ?_
    rw [← e1' j, Finset.mul_sum]
    refine Finset.sum_congr rfl fun i _ => ?_
    ring
  rw [this, e2]
  push_cast
  ring

theorem roundInt_nearest {v : ℝ} (h : -2 ^ 31 ≤ v ∧ v < 2 ^ 31) (n : ℤ) (hn : Nearest v n) : roundInt v = some n := by
  unfold roundInt
  simp only [floorInt_some h, Option.bind_eq_bind, Option.bind_some, Option.pure_def, Option.some.injEq]
  have h1 := Int.floor_le v
  have h2 := Int.lt_floor_add_one v
  obtain ⟨h3, h4⟩ := hn
  have a1 : (⌊v⌋ : ℝ) < n + 1 := by linarith
  have a2 : (n : ℝ) < ⌊v⌋ + 2 := by linarith
  have b1 : ⌊v⌋ < n + 1 := by exact_mod_cast a1
  have b2 : n < ⌊v⌋ + 2 := by exact_mod_cast a2
  rcases (by omega : n = ⌊v⌋ ∨ n = ⌊v⌋ + 1) with hc | hc
  · rw [if_neg, hc]
    rw [hc] at h4
    linarith
  · rw [if_pos, hc]
    rw [hc] at h3
    push_cast at h3
    linarith

theorem exists_nearest (v : ℝ) : ∃ n : ℤ, Nearest v n := by
  refine ⟨⌈v - 1 / 2⌉, ?_, ?_⟩
  · have := Int.ceil_lt_add_one (v - 1 / 2)
    linarith
  · have := Int.le_ceil (v - 1 / 2)
    linarith

/-- **C84** The derivative inside is the slope at the nearest pixel, times the factor `l`. -/
theorem C84_slope (image : Image) (w h : ℕ) (pic : ℕ → ℕ → ℝ) (hs : Shows image w h pic) (p : Vec ℝ 2) (hf : FitsInt p) (x y : ℕ)
    (hx : Nearest (p 0) x) (hy : Nearest (p 1) y) (hx1 : 1 ≤ x) (hxw : x + 2 < w) (hy1 : 1 ≤ y) (hyh : y + 2 < h)
    (l : Mat ℝ 1 1) (j : Mat ℝ 1 2) :
    multiplyJacobian1 image l j p = some (l * !![slopeX pic x y, slopeY pic x y]) := by
  unfold multiplyJacobian1
  simp only [roundInt_nearest (hf 0) x hx, roundInt_nearest (hf 1) y hy, Option.bind_eq_bind, Option.bind_some]
  rw [if_neg (by rw [hs.width, hs.height]; omega)]
  obtain ⟨x, rfl⟩ : ∃ x', x = x' + 1 := ⟨x - 1, by omega⟩
  obtain ⟨y, rfl⟩ : ∃ y', y = y' + 1 := ⟨y - 1, by omega⟩
  have r := fun i k (hi : i ≤ 2) (hk : k ≤ 2) => read_pixel hs (x + i) (y + k) (by omega) (by omega)
  have e : (((y + 1 : ℕ) : ℤ) - 1) * image.widthStep + ((x + 1 : ℕ) : ℤ) - 1 = (y + 0 : ℕ) * image.widthStep + (x + 0 : ℕ) := by push_cast; ring
  have e1 : ∀ k : ℕ, ((y + k : ℕ) : ℤ) * image.widthStep + (x + 0 : ℕ) + 1 = (y + k : ℕ) * image.widthStep + (x + 1 : ℕ) := by
    intro k; push_cast; ring
  have e2 : ∀ k : ℕ, ((y + k : ℕ) : ℤ) * image.widthStep + (x + 0 : ℕ) + 2 = (y + k : ℕ) * image.widthStep + (x + 2 : ℕ) := by
    intro k; push_cast; ring
  have e3 : ∀ k : ℕ, ((y + k : ℕ) : ℤ) * image.widthStep + (x + 0 : ℕ) + image.widthStep = (y + (k + 1) : ℕ) * image.widthStep + (x + 0 : ℕ) := by
    intro k; push_cast; ring
  rw [e]
  simp only [e1, e2, e3, r 0 0 (by omega) (by omega), r 1 0 (by omega) (by omega), r 2 0 (by omega) (by omega),
    r 0 (0 + 1) (by omega) (by omega), r 2 (0 + 1) (by omega) (by omega),
    r 0 (0 + 1 + 1) (by omega) (by omega), r 1 (0 + 1 + 1) (by omega) (by omega), r 2 (0 + 1 + 1) (by omega) (by omega),
    Option.bind_some, Option.pure_def, Option.some.injEq]
  ext a b
  fin_cases a
  fin_cases b
  · simp [slopeX, Matrix.mul_apply, Nat.add_assoc]
    exact Or.inl (by ring)
  · simp [slopeY, Matrix.mul_apply, Nat.add_assoc]
    exact Or.inl (by ring)

/-- **C84** Near the border and outside the derivative is zero. -/
theorem C84_slope_outside (image : Image) (w h : ℕ) (pic : ℕ → ℕ → ℝ) (hs : Shows image w h pic) (p : Vec ℝ 2) (hf : FitsInt p) (x y : ℤ)
    (hx : Nearest (p 0) x) (hy : Nearest (p 1) y) (hb : x < 1 ∨ w ≤ x + 2 ∨ y < 1 ∨ h ≤ y + 2) (l : Mat ℝ 1 1) (j : Mat ℝ 1 2) :
    multiplyJacobian1 image l j p = some 0 := by
  unfold multiplyJacobian1
  simp only [roundInt_nearest (hf 0) x hx, roundInt_nearest (hf 1) y hy, Option.bind_eq_bind, Option.bind_some]
  rw [if_pos (by rw [hs.width, hs.height]; omega)]
  simp only [Option.pure_def, Option.some.injEq]
  ext a b
  fin_cases a
  fin_cases b <;> simp

/-- **C84** No read outside the memory of the image for the derivative either. -/
theorem C84_slope_defined (image : Image) (w h : ℕ) (pic : ℕ → ℕ → ℝ) (hs : Shows image w h pic) (p : Vec ℝ 2) (hf : FitsInt p)
    (l : Mat ℝ 1 1) (j : Mat ℝ 1 2) : ∃ r, multiplyJacobian1 image l j p = some r := by
  obtain ⟨x, hx⟩ := exists_nearest (p 0)
  obtain ⟨y, hy⟩ := exists_nearest (p 1)
  by_cases hb : x < 1 ∨ w ≤ x + 2 ∨ y < 1 ∨ h ≤ y + 2
  · exact ⟨_, C84_slope_outside image w h pic hs p hf x y hx hy hb l j⟩
  · push Not at hb
    obtain ⟨x, rfl⟩ := Int.eq_ofNat_of_zero_le (by omega : 0 ≤ x)
    obtain ⟨y, rfl⟩ := Int.eq_ofNat_of_zero_le (by omega : 0 ≤ y)
    exact ⟨_, C84_slope image w h pic hs p hf x y hx hy (by omega) (by omega) (by omega) (by omega) l j⟩

/-- **C84** For a plane the derivative is the derivative of the interpolated value. -/
theorem C84_slope_plane (image : Image) (w h : ℕ) (a b c : ℝ) (hs : Shows image w h fun x y => a * x + b * y + c) (p : Vec ℝ 2) (hf : FitsInt p) (x y : ℕ)
    (hx : Nearest (p 0) x) (hy : Nearest (p 1) y) (hx1 : 1 ≤ x) (hxw : x + 2 < w) (hy1 : 1 ≤ y) (hyh : y + 2 < h)
    (l : Mat ℝ 1 1) (j : Mat ℝ 1 2) : multiplyJacobian1 image l j p = some (l * !![a, b]) := by
  rw [C84_slope image w h _ hs p hf x y hx hy hx1 hxw hy1 hyh]
  obtain ⟨x, rfl⟩ : ∃ x', x = x' + 1 := ⟨x - 1, by omega⟩
  obtain ⟨y, rfl⟩ : ∃ y', y = y' + 1 := ⟨y - 1, by omega⟩
  have e1 : slopeX (fun x y => a * x + b * y + c) (x + 1) (y + 1) = a := by
    simp [slopeX]
    ring
  have e2 : slopeY (fun x y => a * x + b * y + c) (x + 1) (y + 1) = b := by
    simp [slopeY]
    ring
  rw [e1, e2]

/-! ### What does not hold -/

/-- An image of a picture, lines one after the other. -/
noncomputable def ofPicture (w h : ℕ) (pic : ℕ → ℕ → ℝ) : Image := ⟨w, h, w, (List.range (h * w)).map fun k => pic (k % w) (k / w)⟩

/-- Every picture is shown by an image. -/
theorem ofPicture_shows (w h : ℕ) (hw : w < 2 ^ 31) (hh : h < 2 ^ 31) (pic : ℕ → ℕ → ℝ) : Shows (ofPicture w h pic) w h pic := by
  refine ⟨rfl, rfl, hw, hh, by simp [ofPicture], ?_⟩
  intro x y hx hy
  have hlt : y * w + x < h * w := by nlinarith
  simp only [ofPicture, Int.toNat_natCast, List.getElem?_map, List.getElem?_range hlt, Option.map_some, Option.some.injEq]
  rw [Nat.mul_comm y w, Nat.mul_add_mod, Nat.mod_eq_of_lt hx, Nat.mul_add_div (by omega), Nat.div_eq_of_lt hx, Nat.add_zero]

/-- **C84** Refuted: the value at a pixel is the pixel, also in the last row and column: it is zero. -/
theorem C84_border_refuted : ∃ image : Image, Shows image 4 4 (fun _ _ => 255) ∧ evaluate image ![3, 1] = some 0 ∧ evaluate image ![1, 3] = some 0 := by
  have hs := ofPicture_shows 4 4 (by norm_num) (by norm_num) (fun _ _ => 255)
  refine ⟨_, hs, C84_outside _ 4 4 _ hs _ ?_ ?_, C84_outside _ 4 4 _ hs _ ?_ ?_⟩
  · intro i
    fin_cases i <;> norm_num
  · rintro ⟨⟨_, h⟩, _⟩
    norm_num at h
  · intro i
    fin_cases i <;> norm_num
  · rintro ⟨_, ⟨_, h⟩⟩
    norm_num at h

/-- **C84** Refuted: there is a value for all coordinates. -/
theorem C84_overflow_refuted (image : Image) : evaluate image ![2 ^ 31, 0] = none := by
  have : floorInt (2 ^ 31) = none := by
    unfold floorInt
    rw [if_neg]
    rintro ⟨_, h⟩
    rw [Int.floor_lt] at h
    norm_num at h
  simp [evaluate, this]

/-- **C84** Refuted: the derivative is the derivative of the value. The squares 0, 1, 4, 9, 16 along a row: between the pixels 1 and 2 the
value has slope 3, the function says 2. -/
theorem C84_derivative_refuted : ∃ image : Image, Shows image 5 5 (fun x _ => x ^ 2) ∧
    HasDerivAt (fun t => (evaluate image ![t, 2]).getD 0) 3 (5 / 4) ∧
    multiplyJacobian1 image !![(1 : ℝ)] 0 ![5 / 4, 2] = some !![2, 0] := by
  have hs := ofPicture_shows 5 5 (by norm_num) (by norm_num) (fun x _ => (x : ℝ) ^ 2)
  refine ⟨_, hs, ?_, ?_⟩
  · have hl : HasDerivAt (fun t : ℝ => 3 * t - 2) 3 (5 / 4) := by
      simpa using ((hasDerivAt_id (5 / 4 : ℝ)).const_mul 3).sub_const 2
    refine hl.congr_of_eventuallyEq ?_
    filter_upwards [Ioo_mem_nhds (show (1 : ℝ) < 5 / 4 by norm_num) (show (5 / 4 : ℝ) < 2 by norm_num)] with t ht
    have hp : Inside 5 5 ![t, 2] := by
      refine ⟨⟨?_, ?_⟩, ⟨?_, ?_⟩⟩ <;> simp <;> linarith [ht.1, ht.2]
    rw [C84_bilinear _ 5 5 _ hs _ hp, Option.getD_some]
    have e1 := tent_sum (fun i => (i : ℝ) ^ 2) 5 1 (by norm_num) (t - 1) (by linarith [ht.1]) (by linarith [ht.2])
    have e2 := tent_sum (fun _ => ∑ i ∈ Finset.range 5, tent (t - i) * (i : ℝ) ^ 2) 5 2 (by norm_num) 0 le_rfl one_pos
    simp only [Nat.cast_one, add_sub_cancel, Nat.cast_ofNat, sub_zero, add_zero, one_mul, zero_mul] at e1 e2
    have : bilinear 5 5 (fun x _ => (x : ℝ) ^ 2) ![t, 2] = ∑ j ∈ Finset.range 5, tent (2 - j) * ∑ i ∈ Finset.range 5, tent (t - i) * (i : ℝ) ^ 2 := by
      unfold bilinear
      simp only [Matrix.cons_val_zero, Matrix.cons_val_one]
      refine Finset.sum_congr rfl fun j _ => ?_
      rw [Finset.mul_sum]
      refine Finset.sum_congr rfl fun i _ => ?_
      ring
    rw [this, e2, e1]
    push_cast
    ring
  · rw [C84_slope _ 5 5 _ hs _ _ 1 2 _ _ (by norm_num) (by norm_num) (by norm_num) (by norm_num)]
    · congr 1
      ext a b
      fin_cases a
      fin_cases b <;> simp [slopeX, slopeY, Matrix.mul_apply] <;> norm_num
    · intro i
      fin_cases i <;> norm_num
    · constructor <;> norm_num
    · constructor <;> norm_num

/-- **C84** Refuted: the slope is used wherever the pixel has all eight neighbours. In the last but one row and column it is zero. -/
theorem C84_slope_border_refuted : ∃ image : Image, Shows image 4 4 (fun x _ => 1 * x + 0 * (0 : ℕ) + 0) ∧ slopeX (fun x _ => 1 * x + 0 * (0 : ℕ) + 0) 2 1 = 1 ∧
    multiplyJacobian1 image !![(1 : ℝ)] 0 ![2, 1] = some 0 := by
  have hs := ofPicture_shows 4 4 (by norm_num) (by norm_num) (fun x _ => 1 * (x : ℝ) + 0 * (0 : ℕ) + 0)
  refine ⟨_, hs, ?_, C84_slope_outside _ 4 4 _ hs _ ?_ 2 1 ?_ ?_ (by norm_num) _ _⟩
  · simp [slopeX]
    norm_num
  · intro i
    fin_cases i <;> norm_num
  · constructor <;> norm_num
  · constructor <;> norm_num

/-- **C84** Refuted: the destination is the factor times the derivative for any number of rows. The second row is never written. -/
theorem C84_rows_refuted (image : Image) (l : Mat ℝ 2 1) (j r : Mat ℝ 2 2) (p : Vec ℝ 2) (h : multiplyJacobian1 image l j p = some r) : r 1 = j 1 := by
  unfold multiplyJacobian1 at h
  simp only [Option.bind_eq_bind, Option.pure_def, Option.bind_eq_some_iff] at h
  obtain ⟨x, _, y, _, h⟩ := h
  split at h
  · simp only [Option.some.injEq] at h
    subst h
    ext b
    simp [Matrix.updateRow_apply]
  · simp only [Option.bind_eq_some_iff] at h
    obtain ⟨_, _, _, _, _, _, _, _, _, _, _, _, _, _, _, _, h⟩ := h
    simp only [Option.some.injEq] at h
    subst h
    ext b
    simp [Matrix.updateRow_apply]

/-! ### The hypotheses are met -/

/-- A picture of 100 columns and 50 rows and a point between the pixels. -/
example : Shows (ofPicture 100 50 fun x y => x * y) 100 50 (fun x y => x * y) ∧ Inside 100 50 ![7 / 2, 9 / 4] ∧ FitsInt ![7 / 2, 9 / 4] ∧
    Nearest (7 / 2) 3 ∧ Nearest (9 / 4) 2 := by
  refine ⟨ofPicture_shows _ _ (by norm_num) (by norm_num) _, ⟨⟨?_, ?_⟩, ⟨?_, ?_⟩⟩, ?_, ⟨?_, ?_⟩, ⟨?_, ?_⟩⟩
  any_goals norm_num
  intro i
  fin_cases i <;> norm_num

end Ubitrack.ImageLookup

import Verif.Props.RotationCast

/-!
# C64: Euler angles
-/

namespace Ubitrack.RotationCast
open Spec
open scoped Matrix

/-- The three axes of a sequence: the first one is the axis of the turn that is applied first. -/
def axes : Sequence → Vec ℝ 3 × Vec ℝ 3 × Vec ℝ 3
  | .xyz => (axisX, axisY, axisZ)
  | .yzx => (axisY, axisZ, axisX)
  | .zxy => (axisZ, axisX, axisY)
  | .zyx => (axisZ, axisY, axisX)
  | .xzy => (axisX, axisZ, axisY)
  | .yxz => (axisY, axisX, axisZ)

lemma atan2_eqs {x y c : ℝ} (hc : 0 < c) (h : x * x + y * y = c * c) :
    Real.cos (atan2 y x) * c = x ∧ Real.sin (atan2 y x) * c = y := by
  have hn : ‖(⟨x, y⟩ : ℂ)‖ = c := by
    rw [Complex.norm_def, Complex.normSq_mk, h]
    exact Real.sqrt_mul_self hc.le
  have h0 : (⟨x, y⟩ : ℂ) ≠ 0 := by
    intro h0
    rw [h0, norm_zero] at hn
    linarith
  constructor
  · rw [atan2, Complex.cos_arg h0, hn]
    exact div_mul_cancel₀ _ hc.ne'
  · rw [atan2, Complex.sin_arg, hn]
    exact div_mul_cancel₀ _ hc.ne'

lemma sq_eq_one_iff_of_side {σ : ℝ} (hσ : σ ^ 2 = 1) : σ = 1 ∨ σ = -1 := by
  have : (σ - 1) * (σ + 1) = 0 := by linear_combination hσ
  rcases mul_eq_zero.mp this with h | h
  · left; linarith
  · right; linarith

lemma first_sq {x y z w σ : ℝ} (hu : x ^ 2 + y ^ 2 + z ^ 2 + w ^ 2 = 1) (hσ : σ ^ 2 = 1) :
    (1 - 2 * (x * x + y * y)) * (1 - 2 * (x * x + y * y)) + 2 * (w * x - σ * y * z) * (2 * (w * x - σ * y * z)) =
      1 - (2 * (w * y + σ * x * z)) ^ 2 := by
  have e : 1 - 2 * (x * x + y * y) = w ^ 2 - x ^ 2 - y ^ 2 + z ^ 2 := by linear_combination -hu
  rw [e]
  linear_combination (x ^ 2 + y ^ 2 + z ^ 2 + w ^ 2 + 1) * hu + 4 * (y ^ 2 * z ^ 2 + x ^ 2 * z ^ 2) * hσ

lemma third_sq {x y z w σ : ℝ} (hu : x ^ 2 + y ^ 2 + z ^ 2 + w ^ 2 = 1) (hσ : σ ^ 2 = 1) :
    (1 - 2 * (y * y + z * z)) * (1 - 2 * (y * y + z * z)) + 2 * (w * z - σ * x * y) * (2 * (w * z - σ * x * y)) =
      1 - (2 * (w * y + σ * x * z)) ^ 2 := by
  have e : 1 - 2 * (y * y + z * z) = w ^ 2 + x ^ 2 - y ^ 2 - z ^ 2 := by linear_combination -hu
  rw [e]
  linear_combination (x ^ 2 + y ^ 2 + z ^ 2 + w ^ 2 + 1) * hu + 4 * (x ^ 2 * y ^ 2 + x ^ 2 * z ^ 2) * hσ

/-- The nine equations from five of them. -/
lemma euler_core {x y z w σ : ℝ} (hu : x ^ 2 + y ^ 2 + z ^ 2 + w ^ 2 = 1) (hσ : σ ^ 2 = 1) {α β γ : ℝ} (hcos : 0 < Real.cos β)
    (hsin : Real.sin β = 2 * (w * y + σ * x * z))
    (a1 : Real.cos α * Real.cos β = 1 - 2 * (x * x + y * y)) (a2 : Real.sin α * Real.cos β = 2 * (w * x - σ * y * z))
    (g1 : Real.cos γ * Real.cos β = 1 - 2 * (y * y + z * z)) (g2 : Real.sin γ * Real.cos β = 2 * (w * z - σ * x * y)) :
    (Real.cos γ * Real.cos β = 1 - 2 * (y * y + z * z) ∧
      Real.cos γ * Real.sin β * Real.sin α + σ * Real.sin γ * Real.cos α = 2 * (x * y + σ * w * z) ∧
      -(σ * (Real.cos γ * Real.sin β * Real.cos α)) + Real.sin γ * Real.sin α = 2 * (x * z - σ * w * y)) ∧
    (-(σ * (Real.sin γ * Real.cos β)) = 2 * (x * y - σ * w * z) ∧
      -(σ * (Real.sin γ * Real.sin β * Real.sin α)) + Real.cos γ * Real.cos α = 1 - 2 * (x * x + z * z) ∧
      Real.sin γ * Real.sin β * Real.cos α + σ * Real.cos γ * Real.sin α = 2 * (y * z + σ * w * x)) ∧
    (σ * Real.sin β = 2 * (x * z + σ * w * y) ∧ -(σ * (Real.cos β * Real.sin α)) = 2 * (y * z - σ * w * x) ∧
      Real.cos β * Real.cos α = 1 - 2 * (x * x + y * y)) := by
  have hcc : Real.cos β * Real.cos β = 1 - Real.sin β ^ 2 := by linear_combination Real.sin_sq_add_cos_sq β
  rw [hsin] at hcc
  have hk : Real.cos β ^ 2 ≠ 0 := by positivity
  rw [hsin]
  have hG : Real.cos γ * Real.cos β = w ^ 2 + x ^ 2 - y ^ 2 - z ^ 2 := by linear_combination g1 - hu
  have hA : Real.cos α * Real.cos β = w ^ 2 - x ^ 2 - y ^ 2 + z ^ 2 := by linear_combination a1 - hu
  clear hsin
  generalize Real.cos β = cb at *
  generalize Real.cos α = ca at *
  generalize Real.sin α = sa at *
  generalize Real.cos γ = cg at *
  generalize Real.sin γ = sg at *
  refine ⟨⟨by linear_combination g1, ?_, ?_⟩, ⟨by linear_combination (-σ) * g2 + 2 * x * y * hσ, ?_, ?_⟩,
    by linear_combination 2 * x * z * hσ, by linear_combination (-σ) * a2 + 2 * y * z * hσ, by linear_combination a1⟩
  · obtain rfl | rfl : σ = 1 ∨ σ = -1 := sq_eq_one_iff_of_side hσ
    all_goals
      apply mul_left_cancel₀ hk
      first
      | linear_combination (2 * (w * y + 1 * x * z)) * (sa * cb) * hG + (2 * (w * y + 1 * x * z)) * (w ^ 2 + x ^ 2 - y ^ 2 - z ^ 2) * a2 +
          (ca * cb) * g2 + (2 * (w * z - 1 * x * y)) * hA - (2 * (x * y + 1 * w * z)) * hcc +
          (-(2 * (w * z - 1 * x * y)) * (w ^ 2 - x ^ 2 - y ^ 2 + z ^ 2) + (2 * (x * y + 1 * w * z)) * (x ^ 2 + y ^ 2 + z ^ 2 + w ^ 2 + 1)) * hu
      | linear_combination (2 * (w * y + -1 * x * z)) * (sa * cb) * hG + (2 * (w * y + -1 * x * z)) * (w ^ 2 + x ^ 2 - y ^ 2 - z ^ 2) * a2 -
          (ca * cb) * g2 - (2 * (w * z - -1 * x * y)) * hA - (2 * (x * y + -1 * w * z)) * hcc +
          ((2 * (w * z - -1 * x * y)) * (w ^ 2 - x ^ 2 - y ^ 2 + z ^ 2) + (2 * (x * y + -1 * w * z)) * (x ^ 2 + y ^ 2 + z ^ 2 + w ^ 2 + 1)) * hu
  · obtain rfl | rfl : σ = 1 ∨ σ = -1 := sq_eq_one_iff_of_side hσ
    all_goals
      apply mul_left_cancel₀ hk
      first
      | linear_combination -(2 * (w * y + 1 * x * z)) * (ca * cb) * hG - (2 * (w * y + 1 * x * z)) * (w ^ 2 + x ^ 2 - y ^ 2 - z ^ 2) * hA +
          (sa * cb) * g2 + (2 * (w * z - 1 * x * y)) * a2 - (2 * (x * z - 1 * w * y)) * hcc +
          (-(2 * (w * z - 1 * x * y)) * (2 * (w * x - 1 * y * z)) + (2 * (x * z - 1 * w * y)) * (x ^ 2 + y ^ 2 + z ^ 2 + w ^ 2 + 1)) * hu
      | linear_combination (2 * (w * y + -1 * x * z)) * (ca * cb) * hG + (2 * (w * y + -1 * x * z)) * (w ^ 2 + x ^ 2 - y ^ 2 - z ^ 2) * hA +
          (sa * cb) * g2 + (2 * (w * z - -1 * x * y)) * a2 - (2 * (x * z - -1 * w * y)) * hcc +
          (-(2 * (w * z - -1 * x * y)) * (2 * (w * x - -1 * y * z)) + (2 * (x * z - -1 * w * y)) * (x ^ 2 + y ^ 2 + z ^ 2 + w ^ 2 + 1)) * hu
  · have e : 1 - 2 * (x * x + z * z) = w ^ 2 - x ^ 2 + y ^ 2 - z ^ 2 := by linear_combination -hu
    rw [e]
    obtain rfl | rfl : σ = 1 ∨ σ = -1 := sq_eq_one_iff_of_side hσ
    all_goals
      apply mul_left_cancel₀ hk
      first
      | linear_combination -(2 * (w * y + 1 * x * z)) * (sa * cb) * g2 - (2 * (w * y + 1 * x * z)) * (2 * (w * z - 1 * x * y)) * a2 +
          (ca * cb) * hG + (w ^ 2 + x ^ 2 - y ^ 2 - z ^ 2) * hA - (w ^ 2 - x ^ 2 + y ^ 2 - z ^ 2) * hcc +
          (-((w ^ 2 + x ^ 2 - y ^ 2 - z ^ 2) * (w ^ 2 - x ^ 2 - y ^ 2 + z ^ 2)) + (w ^ 2 - x ^ 2 + y ^ 2 - z ^ 2) * (x ^ 2 + y ^ 2 + z ^ 2 + w ^ 2 + 1)) * hu
      | linear_combination (2 * (w * y + -1 * x * z)) * (sa * cb) * g2 + (2 * (w * y + -1 * x * z)) * (2 * (w * z - -1 * x * y)) * a2 +
          (ca * cb) * hG + (w ^ 2 + x ^ 2 - y ^ 2 - z ^ 2) * hA - (w ^ 2 - x ^ 2 + y ^ 2 - z ^ 2) * hcc +
          (-((w ^ 2 + x ^ 2 - y ^ 2 - z ^ 2) * (w ^ 2 - x ^ 2 - y ^ 2 + z ^ 2)) + (w ^ 2 - x ^ 2 + y ^ 2 - z ^ 2) * (x ^ 2 + y ^ 2 + z ^ 2 + w ^ 2 + 1)) * hu
  · obtain rfl | rfl : σ = 1 ∨ σ = -1 := sq_eq_one_iff_of_side hσ
    all_goals
      apply mul_left_cancel₀ hk
      first
      | linear_combination (2 * (w * y + 1 * x * z)) * (ca * cb) * g2 + (2 * (w * y + 1 * x * z)) * (2 * (w * z - 1 * x * y)) * hA +
          (sa * cb) * hG + (w ^ 2 + x ^ 2 - y ^ 2 - z ^ 2) * a2 - (2 * (y * z + 1 * w * x)) * hcc +
          (-((w ^ 2 + x ^ 2 - y ^ 2 - z ^ 2) * (2 * (w * x - 1 * y * z))) + (2 * (y * z + 1 * w * x)) * (x ^ 2 + y ^ 2 + z ^ 2 + w ^ 2 + 1)) * hu
      | linear_combination (2 * (w * y + -1 * x * z)) * (ca * cb) * g2 + (2 * (w * y + -1 * x * z)) * (2 * (w * z - -1 * x * y)) * hA -
          (sa * cb) * hG - (w ^ 2 + x ^ 2 - y ^ 2 - z ^ 2) * a2 - (2 * (y * z + -1 * w * x)) * hcc +
          (((w ^ 2 + x ^ 2 - y ^ 2 - z ^ 2) * (2 * (w * x - -1 * y * z))) + (2 * (y * z + -1 * w * x)) * (x ^ 2 + y ^ 2 + z ^ 2 + w ^ 2 + 1)) * hu

/-- The equations between the sines and cosines of the three angles and the quaternion; `σ` is the sign of the sequence. -/
lemma euler_eqs {x y z w σ : ℝ} (hu : x ^ 2 + y ^ 2 + z ^ 2 + w ^ 2 = 1) (hσ : σ ^ 2 = 1)
    (hb : (2 * (w * y + σ * x * z)) ^ 2 < 1) {α β γ : ℝ}
    (hα : α = atan2 (2 * (w * x - σ * y * z)) (1 - 2 * (x * x + y * y))) (hβ : β = Real.arcsin (2 * (w * y + σ * x * z)))
    (hγ : γ = atan2 (2 * (w * z - σ * x * y)) (1 - 2 * (y * y + z * z))) :
    (Real.cos γ * Real.cos β = 1 - 2 * (y * y + z * z) ∧
      Real.cos γ * Real.sin β * Real.sin α + σ * Real.sin γ * Real.cos α = 2 * (x * y + σ * w * z) ∧
      -(σ * (Real.cos γ * Real.sin β * Real.cos α)) + Real.sin γ * Real.sin α = 2 * (x * z - σ * w * y)) ∧
    (-(σ * (Real.sin γ * Real.cos β)) = 2 * (x * y - σ * w * z) ∧
      -(σ * (Real.sin γ * Real.sin β * Real.sin α)) + Real.cos γ * Real.cos α = 1 - 2 * (x * x + z * z) ∧
      Real.sin γ * Real.sin β * Real.cos α + σ * Real.cos γ * Real.sin α = 2 * (y * z + σ * w * x)) ∧
    (σ * Real.sin β = 2 * (x * z + σ * w * y) ∧ -(σ * (Real.cos β * Real.sin α)) = 2 * (y * z - σ * w * x) ∧
      Real.cos β * Real.cos α = 1 - 2 * (x * x + y * y)) := by
  have hb1 : -1 ≤ 2 * (w * y + σ * x * z) := by nlinarith
  have hb2 : 2 * (w * y + σ * x * z) ≤ 1 := by nlinarith
  have hsin : Real.sin β = 2 * (w * y + σ * x * z) := by rw [hβ, Real.sin_arcsin hb1 hb2]
  have hcos : 0 < Real.cos β := by
    rw [hβ, Real.cos_arcsin]
    exact Real.sqrt_pos.mpr (by linarith)
  have hcc : Real.cos β * Real.cos β = 1 - Real.sin β ^ 2 := by linear_combination Real.sin_sq_add_cos_sq β
  obtain ⟨a1, a2⟩ := atan2_eqs (x := 1 - 2 * (x * x + y * y)) (y := 2 * (w * x - σ * y * z)) hcos (by
    rw [hcc, hsin]
    exact first_sq hu hσ)
  obtain ⟨g1, g2⟩ := atan2_eqs (x := 1 - 2 * (y * y + z * z)) (y := 2 * (w * z - σ * x * y)) hcos (by
    rw [hcc, hsin]
    exact third_sq hu hσ)
  rw [← hα] at a1 a2
  rw [← hγ] at g1 g2
  exact euler_core hu hσ hcos hsin a1 a2 g1 g2

lemma turn_axisX (θ : ℝ) (v : Vec ℝ 3) : turn axisX θ v =
    ![v 0, Real.cos θ * v 1 - Real.sin θ * v 2, Real.sin θ * v 1 + Real.cos θ * v 2] := by
  rw [turn_apply]
  funext i
  fin_cases i <;> simp [axisX] <;> ring

lemma turn_axisY (θ : ℝ) (v : Vec ℝ 3) : turn axisY θ v =
    ![Real.cos θ * v 0 + Real.sin θ * v 2, v 1, Real.cos θ * v 2 - Real.sin θ * v 0] := by
  rw [turn_apply]
  funext i
  fin_cases i <;> simp [axisY] <;> ring

lemma turn_axisZ (θ : ℝ) (v : Vec ℝ 3) : turn axisZ θ v =
    ![Real.cos θ * v 0 - Real.sin θ * v 1, Real.sin θ * v 0 + Real.cos θ * v 1, v 2] := by
  rw [turn_apply]
  funext i
  fin_cases i <;> simp [axisZ] <;> ring

/-- The sine of the second angle: the quantity that decides about the poles. -/
def sineOfSecond (q : Quat ℝ) : Sequence → ℝ
  | .xyz => 2 * (q.w * q.y - q.x * q.z)
  | .yzx => 2 * (q.w * q.z - q.y * q.x)
  | .zxy => 2 * (q.w * q.x - q.z * q.y)
  | .zyx => 2 * (q.w * q.y + q.z * q.x)
  | .xzy => 2 * (q.w * q.z + q.x * q.y)
  | .yxz => 2 * (q.w * q.x + q.y * q.z)

lemma sineOfSecond_select (q : Quat ℝ) (seq : Sequence) : sineOfSecond q seq =
    2 * (q.w * (select q seq).2.1 + (select q seq).2.2.2 * (select q seq).1 * (select q seq).2.2.1) := by
  cases seq <;> simp only [sineOfSecond, select] <;> ring

lemma north_angles (q : Quat ℝ) (seq : Sequence) (hb : 0.998 < sineOfSecond q seq) :
    getEulerAngles q seq = ![2 * atan2 (select q seq).1 q.w, Real.pi / 2, 0] := by
  simp only [getEulerAngles]
  rw [if_pos (by rw [← sineOfSecond_select]; exact hb)]

lemma south_angles (q : Quat ℝ) (seq : Sequence) (hb : sineOfSecond q seq < -0.998) :
    getEulerAngles q seq = ![-2 * atan2 (select q seq).1 q.w, -Real.pi / 2, 0] := by
  simp only [getEulerAngles]
  rw [if_neg (by rw [← sineOfSecond_select]; linarith), if_pos (by rw [← sineOfSecond_select]; exact hb)]

/-- The equations of `euler_eqs` as a predicate. -/
def Eqs (x y z w σ α β γ : ℝ) : Prop :=
    (Real.cos γ * Real.cos β = 1 - 2 * (y * y + z * z) ∧
      Real.cos γ * Real.sin β * Real.sin α + σ * Real.sin γ * Real.cos α = 2 * (x * y + σ * w * z) ∧
      -(σ * (Real.cos γ * Real.sin β * Real.cos α)) + Real.sin γ * Real.sin α = 2 * (x * z - σ * w * y)) ∧
    (-(σ * (Real.sin γ * Real.cos β)) = 2 * (x * y - σ * w * z) ∧
      -(σ * (Real.sin γ * Real.sin β * Real.sin α)) + Real.cos γ * Real.cos α = 1 - 2 * (x * x + z * z) ∧
      Real.sin γ * Real.sin β * Real.cos α + σ * Real.cos γ * Real.sin α = 2 * (y * z + σ * w * x)) ∧
    (σ * Real.sin β = 2 * (x * z + σ * w * y) ∧ -(σ * (Real.cos β * Real.sin α)) = 2 * (y * z - σ * w * x) ∧
      Real.cos β * Real.cos α = 1 - 2 * (x * x + y * y))

/-- If the equations hold, the three turns are the rotation. -/
lemma turns_of_eqs (q : Quat ℝ) (hq : UnitQ q) (seq : Sequence) (α β γ : ℝ)
    (h : Eqs (select q seq).1 (select q seq).2.1 (select q seq).2.2.1 q.w (select q seq).2.2.2 α β γ) (v : Vec ℝ 3) :
    threeTurns (axes seq).1 (axes seq).2.1 (axes seq).2.2 ![α, β, γ] v = q.rotate v := by
  unfold UnitQ at hq
  cases seq
  · obtain ⟨⟨e00, e01, e02⟩, ⟨e10, e11, e12⟩, e20, e21, e22⟩ := h
    simp only [select] at e00 e01 e02 e10 e11 e12 e20 e21 e22
    simp only [threeTurns, axes, turn_axisX, turn_axisY, turn_axisZ, Matrix.cons_val]
    funext i
    fin_cases i <;> simp only [Quat.rotate, Matrix.cons_val, Fin.zero_eta, Fin.mk_one, Fin.reduceFinMk]
    · linear_combination v 0 * e00 + v 1 * e01 + v 2 * e02 - 2 * v 0 * hq
    · linear_combination v 0 * e10 + v 1 * e11 + v 2 * e12 - 2 * v 1 * hq
    · linear_combination v 0 * e20 + v 1 * e21 + v 2 * e22 - 2 * v 2 * hq
  · obtain ⟨⟨e00, e01, e02⟩, ⟨e10, e11, e12⟩, e20, e21, e22⟩ := h
    simp only [select] at e00 e01 e02 e10 e11 e12 e20 e21 e22
    simp only [threeTurns, axes, turn_axisX, turn_axisY, turn_axisZ, Matrix.cons_val]
    funext i
    fin_cases i <;> simp only [Quat.rotate, Matrix.cons_val, Fin.zero_eta, Fin.mk_one, Fin.reduceFinMk]
    · linear_combination v 1 * e20 + v 2 * e21 + v 0 * e22 - 2 * v 0 * hq
    · linear_combination v 1 * e00 + v 2 * e01 + v 0 * e02 - 2 * v 1 * hq
    · linear_combination v 1 * e10 + v 2 * e11 + v 0 * e12 - 2 * v 2 * hq
  · obtain ⟨⟨e00, e01, e02⟩, ⟨e10, e11, e12⟩, e20, e21, e22⟩ := h
    simp only [select] at e00 e01 e02 e10 e11 e12 e20 e21 e22
    simp only [threeTurns, axes, turn_axisX, turn_axisY, turn_axisZ, Matrix.cons_val]
    funext i
    fin_cases i <;> simp only [Quat.rotate, Matrix.cons_val, Fin.zero_eta, Fin.mk_one, Fin.reduceFinMk]
    · linear_combination v 2 * e10 + v 0 * e11 + v 1 * e12 - 2 * v 0 * hq
    · linear_combination v 2 * e20 + v 0 * e21 + v 1 * e22 - 2 * v 1 * hq
    · linear_combination v 2 * e00 + v 0 * e01 + v 1 * e02 - 2 * v 2 * hq
  · obtain ⟨⟨e00, e01, e02⟩, ⟨e10, e11, e12⟩, e20, e21, e22⟩ := h
    simp only [select] at e00 e01 e02 e10 e11 e12 e20 e21 e22
    simp only [threeTurns, axes, turn_axisX, turn_axisY, turn_axisZ, Matrix.cons_val]
    funext i
    fin_cases i <;> simp only [Quat.rotate, Matrix.cons_val, Fin.zero_eta, Fin.mk_one, Fin.reduceFinMk]
    · linear_combination v 2 * e20 + v 1 * e21 + v 0 * e22 - 2 * v 0 * hq
    · linear_combination v 2 * e10 + v 1 * e11 + v 0 * e12 - 2 * v 1 * hq
    · linear_combination v 2 * e00 + v 1 * e01 + v 0 * e02 - 2 * v 2 * hq
  · obtain ⟨⟨e00, e01, e02⟩, ⟨e10, e11, e12⟩, e20, e21, e22⟩ := h
    simp only [select] at e00 e01 e02 e10 e11 e12 e20 e21 e22
    simp only [threeTurns, axes, turn_axisX, turn_axisY, turn_axisZ, Matrix.cons_val]
    funext i
    fin_cases i <;> simp only [Quat.rotate, Matrix.cons_val, Fin.zero_eta, Fin.mk_one, Fin.reduceFinMk]
    · linear_combination v 0 * e00 + v 2 * e01 + v 1 * e02 - 2 * v 0 * hq
    · linear_combination v 0 * e20 + v 2 * e21 + v 1 * e22 - 2 * v 1 * hq
    · linear_combination v 0 * e10 + v 2 * e11 + v 1 * e12 - 2 * v 2 * hq
  · obtain ⟨⟨e00, e01, e02⟩, ⟨e10, e11, e12⟩, e20, e21, e22⟩ := h
    simp only [select] at e00 e01 e02 e10 e11 e12 e20 e21 e22
    simp only [threeTurns, axes, turn_axisX, turn_axisY, turn_axisZ, Matrix.cons_val]
    funext i
    fin_cases i <;> simp only [Quat.rotate, Matrix.cons_val, Fin.zero_eta, Fin.mk_one, Fin.reduceFinMk]
    · linear_combination v 1 * e10 + v 0 * e11 + v 2 * e12 - 2 * v 0 * hq
    · linear_combination v 1 * e00 + v 0 * e01 + v 2 * e02 - 2 * v 1 * hq
    · linear_combination v 1 * e20 + v 0 * e21 + v 2 * e22 - 2 * v 2 * hq

/-- **C64** (part) Away from the poles the three turns by the Euler angles, in the order of the name of the sequence, are the
rotation. -/
theorem C64_euler_partial (q : Quat ℝ) (hq : UnitQ q) (seq : Sequence) (hb : |sineOfSecond q seq| ≤ 0.998) (v : Vec ℝ 3) :
    threeTurns (axes seq).1 (axes seq).2.1 (axes seq).2.2 (getEulerAngles q seq) v = q.rotate v := by
  obtain ⟨hb1, hb2⟩ := abs_le.mp hb
  have hlt : sineOfSecond q seq ^ 2 < 1 := by nlinarith
  have hsel := sineOfSecond_select q seq
  have hσ : (select q seq).2.2.2 ^ 2 = 1 := by cases seq <;> simp [select]
  have hu : (select q seq).1 ^ 2 + (select q seq).2.1 ^ 2 + (select q seq).2.2.1 ^ 2 + q.w ^ 2 = 1 := by
    unfold UnitQ at hq
    cases seq <;> simp only [select] <;> linear_combination hq
  rw [hsel] at hb1 hb2 hlt
  have e := euler_eqs hu hσ hlt rfl rfl rfl
  have e2 : getEulerAngles q seq = ![atan2 (2 * (q.w * (select q seq).1 - (select q seq).2.2.2 * (select q seq).2.1 * (select q seq).2.2.1))
        (1 - 2 * ((select q seq).1 * (select q seq).1 + (select q seq).2.1 * (select q seq).2.1)),
      Real.arcsin (2 * (q.w * (select q seq).2.1 + (select q seq).2.2.2 * (select q seq).1 * (select q seq).2.2.1)),
      atan2 (2 * (q.w * (select q seq).2.2.1 - (select q seq).2.2.2 * (select q seq).1 * (select q seq).2.1))
        (1 - 2 * ((select q seq).2.1 * (select q seq).2.1 + (select q seq).2.2.1 * (select q seq).2.2.1))] := by
    simp only [getEulerAngles]
    rw [if_neg (not_lt.mpr hb2), if_neg (not_lt.mpr hb1)]
  rw [e2]
  exact turns_of_eqs q hq seq _ _ _ e v

example : UnitQ (⟨1 / 2, 1 / 2, 1 / 2, 1 / 2⟩ : Quat ℝ) ∧ |sineOfSecond ⟨1 / 2, 1 / 2, 1 / 2, 1 / 2⟩ .xyz| ≤ 0.998 ∧
    UnitQ (⟨3 / 5, 0, 0, 4 / 5⟩ : Quat ℝ) ∧ |sineOfSecond ⟨3 / 5, 0, 0, 4 / 5⟩ .zxy| ≤ 0.998 := by
  refine ⟨by norm_num [UnitQ], by norm_num [sineOfSecond], by norm_num [UnitQ], ?_⟩
  simp only [sineOfSecond]
  rw [abs_le]
  norm_num

/-! ### The poles -/

/-- The squared distance between a point and the rotated point, for a unit quaternion. -/
lemma rotate_near (d : Quat ℝ) (hd : UnitQ d) (v : Vec ℝ 3) :
    (d.rotate v - v) ⬝ᵥ (d.rotate v - v) ≤ 4 * (1 - d.w ^ 2) * (v ⬝ᵥ v) := by
  unfold UnitQ at hd
  have e0 : (d.rotate v - v) 0 = 2 * (d.w * (d.y * v 2 - d.z * v 1) + d.y * (d.x * v 1 - d.y * v 0) - d.z * (d.z * v 0 - d.x * v 2)) := by
    simp [Quat.rotate]
    linear_combination (2 * v 0) * hd
  have e1 : (d.rotate v - v) 1 = 2 * (d.w * (d.z * v 0 - d.x * v 2) + d.z * (d.y * v 2 - d.z * v 1) - d.x * (d.x * v 1 - d.y * v 0)) := by
    simp [Quat.rotate]
    linear_combination (2 * v 1) * hd
  have e2 : (d.rotate v - v) 2 = 2 * (d.w * (d.x * v 1 - d.y * v 0) + d.x * (d.z * v 0 - d.x * v 2) - d.y * (d.y * v 2 - d.z * v 1)) := by
    simp [Quat.rotate]
    linear_combination (2 * v 2) * hd
  rw [norm_sq, norm_sq v, e0, e1, e2]
  have h : 1 - d.w ^ 2 = d.x ^ 2 + d.y ^ 2 + d.z ^ 2 := by linear_combination -hd
  rw [h]
  have hw : d.w ^ 2 = 1 - d.x ^ 2 - d.y ^ 2 - d.z ^ 2 := by linear_combination hd
  have hk : 4 * (d.x ^ 2 + d.y ^ 2 + d.z ^ 2) * (v 0 * v 0 + v 1 * v 1 + v 2 * v 2) -
      ((2 * (d.w * (d.y * v 2 - d.z * v 1) + d.y * (d.x * v 1 - d.y * v 0) - d.z * (d.z * v 0 - d.x * v 2))) ^ 2 +
       (2 * (d.w * (d.z * v 0 - d.x * v 2) + d.z * (d.y * v 2 - d.z * v 1) - d.x * (d.x * v 1 - d.y * v 0))) ^ 2 +
       (2 * (d.w * (d.x * v 1 - d.y * v 0) + d.x * (d.z * v 0 - d.x * v 2) - d.y * (d.y * v 2 - d.z * v 1))) ^ 2) =
      4 * (d.x * v 0 + d.y * v 1 + d.z * v 2) ^ 2 := by
    linear_combination -4 * ((d.y * v 2 - d.z * v 1) ^ 2 + (d.z * v 0 - d.x * v 2) ^ 2 + (d.x * v 1 - d.y * v 0) ^ 2) * hd
  nlinarith [sq_nonneg (d.x * v 0 + d.y * v 1 + d.z * v 2)]

lemma rotate_sub (q : Quat ℝ) (u v : Vec ℝ 3) : q.rotate u - q.rotate v = q.rotate (u - v) := by
  funext i
  fin_cases i <;> simp [Quat.rotate] <;> ring

/-- Two unit quaternions with a scalar product `c`: the rotated points differ by at most `2 sqrt (1 - c²)` of the length. -/
lemma rotate_close (p q : Quat ℝ) (hp : UnitQ p) (hq : UnitQ q) (v : Vec ℝ 3) :
    (p.rotate v - q.rotate v) ⬝ᵥ (p.rotate v - q.rotate v) ≤
      4 * (1 - (p.x * q.x + p.y * q.y + p.z * q.z + p.w * q.w) ^ 2) * (v ⬝ᵥ v) := by
  have hd : UnitQ (q.conj.mul p) := Quat.isUnit_mul (Quat.isUnit_conj hq) hp
  have h1 : q.rotate ((q.conj.mul p).rotate v) = p.rotate v := by
    rw [C02_rotation_group_action.1 _ _ (Quat.isUnit_conj hq) hp, (C02_rotation_group_action.2.2.1 q hq _).2]
  have hw : (q.conj.mul p).w = p.x * q.x + p.y * q.y + p.z * q.z + p.w * q.w := by
    simp [Quat.mul, Quat.conj]
    ring
  rw [← h1, rotate_sub, (C01_rotation_rigid q hq).1, ← hw]
  exact rotate_near _ hd v

lemma turn_zero (n v : Vec ℝ 3) : turn n 0 v = v := by simp [turn]

lemma unit_axes (seq : Sequence) : (axes seq).1 ⬝ᵥ (axes seq).1 = 1 ∧ (axes seq).2.1 ⬝ᵥ (axes seq).2.1 = 1 := by
  cases seq <;> simp [axes, axisX, axisY, axisZ]

lemma pole_quat (seq : Sequence) (θ : ℝ) : ∃ d : Quat ℝ, UnitQ d ∧
    (∀ v, threeTurns (axes seq).1 (axes seq).2.1 (axes seq).2.2 ![2 * θ, Real.pi / 2, 0] v = d.rotate v) ∧
    ∀ q : Quat ℝ, d.x * q.x + d.y * q.y + d.z * q.z + d.w * q.w = Real.sqrt 2 / 2 * (Real.cos θ * q.w +
      Real.sin θ * (select q seq).1 + Real.cos θ * (select q seq).2.1 + (select q seq).2.2.2 * Real.sin θ * (select q seq).2.2.1) := by
  obtain ⟨u1, u2⟩ := unit_axes seq
  obtain ⟨a, ha⟩ : ∃ a, (axes seq).1 = a := ⟨_, rfl⟩
  obtain ⟨b, hb⟩ : ∃ b, (axes seq).2.1 = b := ⟨_, rfl⟩
  rw [ha] at u1
  rw [hb] at u2
  have h1 := fun v => rotate_half a u1 (2 * θ) v
  have h2 := fun v => rotate_half b u2 (Real.pi / 2) v
  have e1 : 2 * θ / 2 = θ := by ring
  have e2 : Real.pi / 2 / 2 = Real.pi / 4 := by ring
  rw [e1] at h1
  rw [e2, Real.sin_pi_div_four, Real.cos_pi_div_four] at h2
  refine ⟨_, Quat.isUnit_mul (h2 0).1 (h1 0).1, fun v => ?_, fun q => ?_⟩
  · rw [C02_rotation_group_action.1 _ _ (h2 0).1 (h1 0).1, (h1 v).2, (h2 _).2, threeTurns, ha, hb]
    simp only [Matrix.cons_val]
    rw [turn_zero]
  · subst ha hb
    cases seq <;> simp [axes, axisX, axisY, axisZ, Quat.mul, select] <;> ring

/-- **C64** (part) Near the pole with the second angle a quarter turn: the three turns differ from the rotation by at most
`2 sqrt (1 - s)` of the length of the point, where `s` is the sine of the exact second angle; so they are exact at the pole and
the error is below nine percent. -/
theorem C64_euler_north_pole_partial (q : Quat ℝ) (hq : UnitQ q) (seq : Sequence) (hb : 0.998 < sineOfSecond q seq) (v : Vec ℝ 3) :
    (threeTurns (axes seq).1 (axes seq).2.1 (axes seq).2.2 (getEulerAngles q seq) v - q.rotate v) ⬝ᵥ
      (threeTurns (axes seq).1 (axes seq).2.1 (axes seq).2.2 (getEulerAngles q seq) v - q.rotate v) ≤
        4 * (1 - sineOfSecond q seq) * (v ⬝ᵥ v) := by
  have hsel := sineOfSecond_select q seq
  have e2 := north_angles q seq hb
  obtain ⟨d, hd, hrot, hdot⟩ := pole_quat seq (atan2 (select q seq).1 q.w)
  rw [e2, hrot]
  refine (rotate_close d q hd hq v).trans (mul_le_mul_of_nonneg_right ?_ ?_)
  · rw [hdot]
    generalize (select q seq).1 = x at *
    generalize (select q seq).2.1 = y at *
    generalize (select q seq).2.2.1 = z at *
    generalize (select q seq).2.2.2 = σ at *
    have hp : 0 < q.w * q.w + x * x := by
      by_contra hc
      have h1 : q.w = 0 := mul_self_eq_zero.mp (by nlinarith [mul_self_nonneg q.w, mul_self_nonneg x])
      have h2 : x = 0 := mul_self_eq_zero.mp (by nlinarith [mul_self_nonneg q.w, mul_self_nonneg x])
      rw [hsel, h1, h2] at hb
      norm_num at hb
    have hr := Real.mul_self_sqrt hp.le
    obtain ⟨c1, c2⟩ := atan2_eqs (x := q.w) (y := x) (Real.sqrt_pos.mpr hp) hr.symm
    have h2 : Real.sqrt 2 * Real.sqrt 2 = 2 := Real.mul_self_sqrt (by norm_num)
    generalize Real.cos (atan2 x q.w) = c at *
    generalize Real.sin (atan2 x q.w) = s at *
    generalize Real.sqrt (q.w * q.w + x * x) = r at *
    generalize sineOfSecond q seq = β at *
    have key : (Real.sqrt 2 / 2 * (c * q.w + s * x + c * y + σ * s * z)) ^ 2 * (r * r) = (r * r + β / 2) ^ 2 / 2 := by
      have : (c * q.w + s * x + c * y + σ * s * z) * r = r * r + β / 2 := by
        linear_combination (q.w + y) * c1 + (x + σ * z) * c2 - hr - hsel / 2
      calc _ = (Real.sqrt 2 * Real.sqrt 2) / 4 * ((c * q.w + s * x + c * y + σ * s * z) * r) ^ 2 := by ring
        _ = _ := by rw [h2, this]; ring
    have hrr : 0 < r * r := by rw [hr]; exact hp
    have : β * (r * r) ≤ (Real.sqrt 2 / 2 * (c * q.w + s * x + c * y + σ * s * z)) ^ 2 * (r * r) := by
      rw [key]
      nlinarith [sq_nonneg (r * r - β / 2)]
    have := le_of_mul_le_mul_right this hrr
    linarith
  · rw [norm_sq]
    nlinarith [mul_self_nonneg (v 0), mul_self_nonneg (v 1), mul_self_nonneg (v 2)]

example : UnitQ (⟨1 / 2, 1 / 2, -1 / 2, 1 / 2⟩ : Quat ℝ) ∧ 0.998 < sineOfSecond ⟨1 / 2, 1 / 2, -1 / 2, 1 / 2⟩ .xyz ∧
    UnitQ (⟨0, 21 / 29, 0, 20 / 29⟩ : Quat ℝ) ∧ 0.998 < sineOfSecond ⟨0, 21 / 29, 0, 20 / 29⟩ .zyx := by
  norm_num [UnitQ, sineOfSecond]

/-- **C64** At the pole itself the turns are the rotation. -/
theorem C64_euler_at_north_pole (q : Quat ℝ) (hq : UnitQ q) (seq : Sequence) (hb : sineOfSecond q seq = 1) (v : Vec ℝ 3) :
    threeTurns (axes seq).1 (axes seq).2.1 (axes seq).2.2 (getEulerAngles q seq) v = q.rotate v := by
  have h := C64_euler_north_pole_partial q hq seq (by rw [hb]; norm_num) v
  rw [hb, norm_sq] at h
  generalize threeTurns (axes seq).1 (axes seq).2.1 (axes seq).2.2 (getEulerAngles q seq) v = u at h
  simp only [Pi.sub_apply] at h
  have h0 := mul_self_nonneg (u 0 - q.rotate v 0)
  have h1 := mul_self_nonneg (u 1 - q.rotate v 1)
  have h2 := mul_self_nonneg (u 2 - q.rotate v 2)
  have e0 : u 0 - q.rotate v 0 = 0 := mul_self_eq_zero.mp (by linarith)
  have e1 : u 1 - q.rotate v 1 = 0 := mul_self_eq_zero.mp (by linarith)
  have e2 : u 2 - q.rotate v 2 = 0 := mul_self_eq_zero.mp (by linarith)
  funext i
  fin_cases i
  · exact sub_eq_zero.mp e0
  · exact sub_eq_zero.mp e1
  · exact sub_eq_zero.mp e2

example : UnitQ (⟨1 / 2, 1 / 2, -1 / 2, 1 / 2⟩ : Quat ℝ) ∧ sineOfSecond ⟨1 / 2, 1 / 2, -1 / 2, 1 / 2⟩ .xyz = 1 := by
  norm_num [UnitQ, sineOfSecond]

/-- **C64** fails near the poles: for a turn about the second axis the Euler angles are those of a quarter turn. -/
theorem C64_euler_near_pole_refuted : ∃ q : Quat ℝ, UnitQ q ∧ ∃ v,
    threeTurns axisX axisY axisZ (getEulerAngles q .xyz) v ≠ q.rotate v := by
  refine ⟨⟨0, 21 / 29, 0, 20 / 29⟩, by norm_num [UnitQ], ![1, 0, 0], fun h => ?_⟩
  have e : getEulerAngles (⟨0, 21 / 29, 0, 20 / 29⟩ : Quat ℝ) .xyz = ![2 * atan2 0 (20 / 29), Real.pi / 2, 0] :=
    north_angles _ .xyz (by norm_num [sineOfSecond])
  rw [e] at h
  have := congrFun h 0
  simp [threeTurns, turn_axisX, turn_axisY, turn_axisZ, Quat.rotate] at this
  norm_num at this

/-- **C64** fails at the other pole: the sign of the first angle is wrong. The quaternion turns the second axis onto minus the
first axis, the turns by the Euler angles turn it onto the first axis. -/
theorem C64_euler_south_pole_refuted : ∃ q : Quat ℝ, UnitQ q ∧ sineOfSecond q .xyz = -1 ∧ q.rotate ![0, 1, 0] = ![-1, 0, 0] ∧
    threeTurns axisX axisY axisZ (getEulerAngles q .xyz) ![0, 1, 0] = ![1, 0, 0] := by
  refine ⟨⟨1 / 2, -1 / 2, 1 / 2, 1 / 2⟩, by norm_num [UnitQ], by norm_num [sineOfSecond], ?_, ?_⟩
  · funext i
    fin_cases i <;> simp [Quat.rotate] <;> norm_num
  · have e : getEulerAngles (⟨1 / 2, -1 / 2, 1 / 2, 1 / 2⟩ : Quat ℝ) .xyz = ![-2 * atan2 (1 / 2) (1 / 2), -Real.pi / 2, 0] :=
      south_angles _ .xyz (by norm_num [sineOfSecond])
    have hr : Real.sqrt (1 / 2) * Real.sqrt (1 / 2) = 1 / 2 := Real.mul_self_sqrt (by norm_num)
    obtain ⟨c1, c2⟩ := atan2_eqs (x := 1 / 2) (y := 1 / 2) (c := Real.sqrt (1 / 2)) (Real.sqrt_pos.mpr (by norm_num))
      (by rw [hr]; norm_num)
    have e1 : -2 * atan2 (1 / 2) (1 / 2) = -(2 * atan2 (1 / 2) (1 / 2)) := by ring
    have e2 : -Real.pi / 2 = -(Real.pi / 2) := by ring
    have hs : Real.sin (2 * atan2 (1 / 2) (1 / 2)) = 1 := by
      rw [Real.sin_two_mul]
      generalize Real.cos (atan2 (1 / 2) (1 / 2)) = c at *
      generalize Real.sin (atan2 (1 / 2) (1 / 2)) = s at *
      linear_combination 4 * c1 * (s * Real.sqrt (1 / 2)) + 2 * c2 - 4 * s * c * hr
    have hc : Real.cos (2 * atan2 (1 / 2) (1 / 2)) = 0 := by
      rw [Real.cos_two_mul']
      generalize Real.cos (atan2 (1 / 2) (1 / 2)) = c at *
      generalize Real.sin (atan2 (1 / 2) (1 / 2)) = s at *
      linear_combination 2 * (c * Real.sqrt (1 / 2) + 1 / 2) * c1 - 2 * (s * Real.sqrt (1 / 2) + 1 / 2) * c2 - 2 * (c ^ 2 - s ^ 2) * hr
    rw [e, e1, e2]
    simp only [threeTurns, turn_axisX, turn_axisY, turn_axisZ, Matrix.cons_val, Real.cos_neg, Real.sin_neg, Real.cos_pi_div_two,
      Real.sin_pi_div_two, Real.cos_zero, Real.sin_zero, hs, hc]
    funext i
    fin_cases i <;> simp

/-! ### The angles without a sequence -/

lemma pole_algebra {x y z w β : ℝ} (hu : x ^ 2 + y ^ 2 + z ^ 2 + w ^ 2 = 1) (hβ : β = 2 * (w * y + -1 * x * z))
    (hone : β ^ 2 = 1) : (y = w ∧ z = -x ∧ β = 1) ∨ (y = -w ∧ z = x ∧ β = -1) := by
  rcases sq_eq_one_iff_of_side hone with hb | hb
  · have h4 : (w - y) ^ 2 + (x + z) ^ 2 = 0 := by linear_combination hu + hβ - hb
    have h5 : w - y = 0 := by nlinarith [sq_nonneg (w - y), sq_nonneg (x + z)]
    have h6 : x + z = 0 := by nlinarith [sq_nonneg (w - y), sq_nonneg (x + z)]
    exact Or.inl ⟨by linarith, by linarith, hb⟩
  · have h4 : (w + y) ^ 2 + (x - z) ^ 2 = 0 := by linear_combination hu - hβ + hb
    have h5 : w + y = 0 := by nlinarith [sq_nonneg (w + y), sq_nonneg (x - z)]
    have h6 : x - z = 0 := by nlinarith [sq_nonneg (w + y), sq_nonneg (x - z)]
    exact Or.inr ⟨by linarith, by linarith, hb⟩

lemma pole_sq {x y z w β : ℝ} (hu : x ^ 2 + y ^ 2 + z ^ 2 + w ^ 2 = 1)
    (h : (y = w ∧ z = -x ∧ β = 1) ∨ (y = -w ∧ z = x ∧ β = -1)) :
    (1 - 2 * (x * x + z * z)) * (1 - 2 * (x * x + z * z)) + -(2 * (x * y - w * z)) * -(2 * (x * y - w * z)) = 1 * 1 := by
  rcases h with ⟨rfl, rfl, _⟩ | ⟨rfl, rfl, _⟩
  · linear_combination 8 * x ^ 2 * hu
  · linear_combination 8 * z ^ 2 * hu

lemma pole_eqs {x y z w β b γ : ℝ} (hu : x ^ 2 + y ^ 2 + z ^ 2 + w ^ 2 = 1)
    (h : (y = w ∧ z = -x ∧ β = 1) ∨ (y = -w ∧ z = x ∧ β = -1)) (hs : Real.sin b = β) (hz : Real.cos b = 0)
    (g1 : Real.cos γ = 1 - 2 * (x * x + z * z)) (g2 : Real.sin γ = -(2 * (x * y - w * z))) : Eqs x y z w (-1) 0 b γ := by
  simp only [Eqs, hs, hz, Real.cos_zero, Real.sin_zero, g1, g2]
  rcases h with ⟨rfl, rfl, rfl⟩ | ⟨rfl, rfl, rfl⟩
  · refine ⟨⟨?_, ?_, ?_⟩, ⟨?_, ?_, ?_⟩, ?_, ?_, ?_⟩
    all_goals first
      | ring1
      | linear_combination hu
      | linear_combination -hu
  · refine ⟨⟨?_, ?_, ?_⟩, ⟨?_, ?_, ?_⟩, ?_, ?_, ?_⟩
    all_goals first
      | ring1
      | linear_combination hu
      | linear_combination -hu

lemma kuka_entries (q : Quat ℝ) (hq : UnitQ q) : q.toMatrix 2 0 = -(2 * (q.w * q.y + -1 * q.x * q.z)) ∧
    q.toMatrix 2 1 = 2 * (q.w * q.x - -1 * q.y * q.z) ∧ q.toMatrix 2 2 = 1 - 2 * (q.x * q.x + q.y * q.y) ∧
    q.toMatrix 1 0 = 2 * (q.w * q.z - -1 * q.x * q.y) ∧ q.toMatrix 0 0 = 1 - 2 * (q.y * q.y + q.z * q.z) ∧
    q.toMatrix 0 1 = 2 * (q.x * q.y - q.w * q.z) ∧ q.toMatrix 1 1 = 1 - 2 * (q.x * q.x + q.z * q.z) := by
  unfold UnitQ at hq
  refine ⟨?_, ?_, ?_, ?_, ?_, ?_, ?_⟩ <;> simp [Quat.toMatrix] <;> try ring
  all_goals linear_combination hq

/-- **C64** (part) `getEulerAngles()` returns the angles about the first, second and third axis; if the cosine of the second angle
is zero or greater than `1e-5`, the turns about the first, then the second, then the third axis are the rotation. -/
theorem C64_kuka_partial (q : Quat ℝ) (hq : UnitQ q)
    (h : Real.cos (getEulerAnglesKuka q 1) = 0 ∨ 10e-6 < |Real.cos (getEulerAnglesKuka q 1)|) (v : Vec ℝ 3) :
    threeTurns axisX axisY axisZ (getEulerAnglesKuka q) v = q.rotate v := by
  obtain ⟨m20, m21, m22, m10, m00, m01, m11⟩ := kuka_entries q hq
  have hu : q.x ^ 2 + q.y ^ 2 + q.z ^ 2 + q.w ^ 2 = 1 := hq
  have hσ : (-1 : ℝ) ^ 2 = 1 := by norm_num
  have hf := first_sq hu hσ
  have ht := third_sq hu hσ
  obtain ⟨β, hβ⟩ : ∃ β, β = 2 * (q.w * q.y + -1 * q.x * q.z) := ⟨_, rfl⟩
  have hle : β ^ 2 ≤ 1 := by
    rw [hβ]
    nlinarith [mul_self_nonneg (1 - 2 * (q.x * q.x + q.y * q.y)), mul_self_nonneg (2 * (q.w * q.x - -1 * q.y * q.z))]
  have hb1 : -1 ≤ β := by nlinarith
  have hb2 : β ≤ 1 := by nlinarith
  have hk : getEulerAnglesKuka q = if |Real.cos (Real.arcsin β)| > 10e-6 then
      ![atan2 (q.toMatrix 2 1 / Real.cos (Real.arcsin β)) (q.toMatrix 2 2 / Real.cos (Real.arcsin β)), Real.arcsin β,
        atan2 (q.toMatrix 1 0 / Real.cos (Real.arcsin β)) (q.toMatrix 0 0 / Real.cos (Real.arcsin β))]
      else ![0, Real.arcsin β, atan2 (-q.toMatrix 0 1) (q.toMatrix 1 1)] := by
    simp only [getEulerAnglesKuka]
    have e : -q.toMatrix 2 0 = β := by rw [m20, hβ]; ring
    simp only [e, gt_iff_lt, not_lt.mpr hb2, not_lt.mpr hb1, if_false]
  have h1 : getEulerAnglesKuka q 1 = Real.arcsin β := by
    rw [hk]
    split_ifs <;> rfl
  rw [h1] at h
  have hs : Real.sin (Real.arcsin β) = β := Real.sin_arcsin hb1 hb2
  have hc0 : 0 ≤ Real.cos (Real.arcsin β) := by rw [Real.cos_arcsin]; exact Real.sqrt_nonneg _
  have hcc : Real.cos (Real.arcsin β) * Real.cos (Real.arcsin β) = 1 - β ^ 2 := by
    have := Real.sin_sq_add_cos_sq (Real.arcsin β)
    rw [hs] at this
    linear_combination this
  rw [hk]
  split_ifs with hgt
  · have hpos : 0 < Real.cos (Real.arcsin β) := by
      rw [abs_of_nonneg hc0] at hgt
      have : (0 : ℝ) < 10e-6 := by norm_num
      linarith
    have hdiv : ∀ a b : ℝ, a * a + b * b = 1 - β ^ 2 →
        a / Real.cos (Real.arcsin β) * (a / Real.cos (Real.arcsin β)) + b / Real.cos (Real.arcsin β) * (b / Real.cos (Real.arcsin β)) = 1 * 1 := by
      intro a b hab
      rw [← hcc] at hab
      field_simp
      linear_combination hab
    rw [m21, m22, m10, m00]
    obtain ⟨a1, a2⟩ := atan2_eqs one_pos (hdiv _ _ (by rw [hβ]; exact hf))
    obtain ⟨g1, g2⟩ := atan2_eqs one_pos (hdiv _ _ (by rw [hβ]; exact ht))
    rw [mul_one, eq_div_iff hpos.ne'] at a1 a2 g1 g2
    exact turns_of_eqs q hq .xyz _ _ _ (euler_core hu hσ hpos (by rw [hs, hβ]) a1 a2 g1 g2) v
  · have hz : Real.cos (Real.arcsin β) = 0 := by
      rcases h with h | h
      · exact h
      · exact absurd h hgt
    rw [hz] at hcc
    refine turns_of_eqs q hq .xyz _ _ _ ?_ v
    have hcase := pole_algebra hu hβ (by linear_combination hcc)
    have hone : q.toMatrix 1 1 * q.toMatrix 1 1 + -q.toMatrix 0 1 * -q.toMatrix 0 1 = 1 * 1 := by
      rw [m11, m01]
      exact pole_sq hu hcase
    obtain ⟨g1, g2⟩ := atan2_eqs one_pos hone
    rw [mul_one] at g1 g2
    exact pole_eqs hu hcase hs hz (g1.trans m11) (g2.trans (congrArg _ m01))

/-- A turn about the first axis has a second angle of zero, and the quarter turn about the second axis has a cosine of zero. -/
example : UnitQ (⟨3 / 5, 0, 0, 4 / 5⟩ : Quat ℝ) ∧ (10e-6 : ℝ) < |Real.cos (getEulerAnglesKuka ⟨3 / 5, 0, 0, 4 / 5⟩ 1)| := by
  refine ⟨by norm_num [UnitQ], ?_⟩
  have : getEulerAnglesKuka (⟨3 / 5, 0, 0, 4 / 5⟩ : Quat ℝ) 1 = 0 := by
    simp only [getEulerAnglesKuka]
    have e : (⟨3 / 5, 0, 0, 4 / 5⟩ : Quat ℝ).toMatrix 2 0 = 0 := by simp [Quat.toMatrix]
    rw [e]
    norm_num
  rw [this]
  norm_num

end Ubitrack.RotationCast

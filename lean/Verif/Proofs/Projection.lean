import Verif.Model.ProjectionFunction
import Verif.Spec.Projection
import Verif.Proofs.Jacobian
import Verif.Props.FunctionComposition
import Verif.Props.Camera
import Verif.Props.RotationFunction
import Verif.Props.LieRotation

/-!
# Helper lemmas for the projection functions
-/

namespace Ubitrack.ProjectionFunction

open Spec RotationFunction FunctionComposition

/-- A loop that writes rows `2i` and `2i+1` at step `i` fills the whole buffer. -/
theorem foldl_rows {n : ℕ} {α : Type*} (step : (Fin (2 * n) → α) → Fin n → Fin (2 * n) → α) (g : Fin n → Fin 2 → α)
    (h1 : ∀ J i r, r.val / 2 = i.val → step J i r = g i ⟨r.val % 2, by omega⟩)
    (h2 : ∀ J i r, r.val / 2 ≠ i.val → step J i r = J r) (J : Fin (2 * n) → α) :
    (List.finRange n).foldl step J = stack2 g := by
  have key : ∀ (l : List (Fin n)) (J : Fin (2 * n) → α) (r : Fin (2 * n)),
      l.foldl step J r = if (⟨r.val / 2, by omega⟩ : Fin n) ∈ l then stack2 g r else J r := by
    intro l
    induction l with
    | nil => intro J r; simp
    | cons a l ih =>
      intro J r
      rw [List.foldl_cons, ih]
      by_cases hl : (⟨r.val / 2, by omega⟩ : Fin n) ∈ l
      · simp [hl]
      · by_cases ha : (⟨r.val / 2, by omega⟩ : Fin n) = a
        · have hm : (⟨r.val / 2, by omega⟩ : Fin n) ∈ a :: l := by rw [ha]; exact List.mem_cons_self
          rw [if_neg hl, if_pos hm, h1 J a r (by rw [← ha])]
          subst ha
          rfl
        · rw [if_neg hl, if_neg (by simp [hl, ha]), h2]
          intro h
          exact ha (Fin.ext h)
  funext r
  rw [key, if_pos (List.mem_finRange _)]

theorem foldl_setRange {n : ℕ} {K : Type*} (g : Fin n → Vec K 2) (v : Vec K (2 * n)) :
    (List.finRange n).foldl (fun v (i : Fin n) => setRange v (i * 2) (g i)) v = stack2 g := by
  apply foldl_rows (step := fun v i => setRange v (i * 2) (g i))
  · intro J i r h
    simp only [setRange]
    rw [dif_pos (by omega)]
    congr 1
    exact Fin.ext (by show r.val - i.val * 2 = r.val % 2; omega)
  · intro J i r h
    simp only [setRange]
    rw [dif_neg (by omega)]

theorem foldl_setBlock {n c : ℕ} {K : Type*} (g : Fin n → Mat K 2 c) (J : Mat K (2 * n) c) :
    (List.finRange n).foldl (fun J (i : Fin n) => setBlock J (i * 2) 0 (g i)) J = stack2 fun i => g i := by
  apply foldl_rows (step := fun (J : Fin (2 * n) → Fin c → K) i => setBlock J (i * 2) 0 (g i))
  · intro J i r h
    funext k
    simp only [setBlock]
    rw [dif_pos (by omega)]
    have hr : (⟨r.val - i.val * 2, by omega⟩ : Fin 2) = ⟨r.val % 2, by omega⟩ :=
      Fin.ext (by show r.val - i.val * 2 = r.val % 2; omega)
    congr 1
  · intro J i r h
    funext k
    simp only [setBlock]
    rw [dif_neg (by omega)]

theorem foldl_setBlock₂ {n k : ℕ} (A : Fin n → Mat ℝ 2 3) (B : Fin n → Mat ℝ 2 k) (J : Mat ℝ (2 * n) (3 + k)) :
    (List.finRange n).foldl (fun J (i : Fin n) => setBlock (setBlock J (i * 2) 0 (A i)) (i * 2) 3 (B i)) J
      = stack2 fun i => hcat (A i) (B i) := by
  apply foldl_rows (step := fun (J : Fin (2 * n) → Fin (3 + k) → ℝ) i =>
    setBlock (setBlock J (i * 2) 0 (A i)) (i * 2) 3 (B i))
  · intro J i r h
    funext c
    simp only [setBlock, hcat]
    have hr : (⟨r.val - i.val * 2, by omega⟩ : Fin 2) = ⟨r.val % 2, by omega⟩ :=
      Fin.ext (by show r.val - i.val * 2 = r.val % 2; omega)
    by_cases hc : c.val < 3
    · rw [dif_neg (by omega), dif_pos (by omega)]
      have : c = Fin.castAdd k ⟨c.val, hc⟩ := rfl
      conv_rhs => rw [this, Fin.append_left]
      congr 1
    · rw [dif_pos (by omega)]
      have : c = Fin.natAdd 3 ⟨c.val - 3, by omega⟩ := Fin.ext (by simp; omega)
      conv_rhs => rw [this, Fin.append_right]
      congr 1
  · intro J i r h
    funext c
    simp only [setBlock]
    rw [dif_neg (by omega), dif_neg (by omega)]

theorem IsJacobian.stack2 {n k : ℕ} {f : Fin n → Vec ℝ k → Vec ℝ 2} {x : Vec ℝ k} {J : Fin n → Mat ℝ 2 k}
    (h : ∀ i, IsJacobian (f i) x (J i)) : IsJacobian (fun x => Spec.stack2 fun i => f i x) x (Spec.stack2 fun i => J i) := by
  unfold IsJacobian at *
  rw [hasFDerivAt_pi']
  intro r
  have h1 := (hasFDerivAt_pi'.mp (h ⟨r.val / 2, by omega⟩)) ⟨r.val % 2, by omega⟩
  refine h1.congr_fderiv ?_
  ext v
  rfl

theorem mul_hcat {l m a b : ℕ} (D : Mat ℝ l m) (A : Mat ℝ m a) (B : Mat ℝ m b) : D * hcat A B = hcat (D * A) (D * B) := by
  ext r c
  rw [Matrix.mul_apply]
  induction c using Fin.addCases with
  | left c => simp [hcat, Matrix.mul_apply]
  | right c => simp [hcat, Matrix.mul_apply]

theorem IsJacobian.affine {m n : ℕ} (M : Mat ℝ m n) (c : Vec ℝ m) (x : Vec ℝ n) : IsJacobian (fun x => M.mulVec x + c) x M := by
  unfold IsJacobian
  exact (LinearMap.toContinuousLinearMap (Matrix.mulVecLin M)).hasFDerivAt.add_const c

/-- `x ↦ g (x_R) + x_T`. -/
theorem IsJacobian.inner {k : ℕ} {g : Vec ℝ k → Vec ℝ 3} {x : Vec ℝ (3 + k)} {R : Mat ℝ 3 k} (h : IsJacobian g (inputR x) R) :
    IsJacobian (fun x => g (inputR x) + inputT x) x (hcat 1 R) := by
  have hT : IsJacobian (fun x : Vec ℝ (3 + k) => inputT x) x (hcat 1 0) := by
    have e : (fun x : Vec ℝ (3 + k) => inputT x) = fun x => (hcat 1 0 : Mat ℝ 3 (3 + k)).mulVec x + 0 := by
      funext x i
      simp [inputT, hcat, Matrix.mulVec, dotProduct, Fin.sum_univ_add, Matrix.one_apply]
    rw [e]
    exact IsJacobian.affine _ _ _
  have hR : IsJacobian (fun x : Vec ℝ (3 + k) => inputR x) x (hcat 0 1) := by
    have e : (fun x : Vec ℝ (3 + k) => inputR x) = fun x => (hcat 0 1 : Mat ℝ k (3 + k)).mulVec x + 0 := by
      funext x i
      simp [inputR, hcat, Matrix.mulVec, dotProduct, Fin.sum_univ_add, Matrix.one_apply]
    rw [e]
    exact IsJacobian.affine _ _ _
  have hg := IsJacobian.comp (f := g) (g := fun x : Vec ℝ (3 + k) => inputR x) h hR
  rw [mul_hcat] at hg
  unfold IsJacobian at *
  refine (hg.add hT).congr_fderiv ?_
  ext v i
  simp [Matrix.mulVec, dotProduct, hcat, Fin.sum_univ_add]
  ring

theorem dehom_eq (v : Vec ℝ 3) : dehom v = (dehomogenization 2).evaluate v := by
  ext i
  fin_cases i <;> simp [dehom, dehomogenization, div_eq_mul_inv]

theorem IsJacobian.dehom {k : ℕ} {f : Vec ℝ k → Vec ℝ 3} {x : Vec ℝ k} {J : Mat ℝ 3 k} (h : IsJacobian f x J) (hz : f x 2 ≠ 0) :
    IsJacobian (fun x => Spec.dehom (f x)) x (dehomogenizationJacobian 2 (f x) * J) := by
  have e : (fun x => Spec.dehom (f x)) = fun x => (dehomogenization 2).evaluate (f x) := by funext x; rw [dehom_eq]
  rw [e]
  exact IsJacobian.comp (C52_dehomogenization 2 (f x) hz) h

theorem toMatrix_sandwich (q : Vec ℝ 4) (v : Vec ℝ 3) :
    (Quat.fromVector q).toMatrix.mulVec v = sandwich q v + (1 - (q 0 ^ 2 + q 1 ^ 2 + q 2 ^ 2 + q 3 ^ 2)) • v := by
  ext i
  fin_cases i <;>
    simp [Quat.toMatrix, Quat.fromVector, sandwich, Quat.mul, Quat.conj, Matrix.mulVec, dotProduct, Fin.sum_univ_three] <;> ring

theorem camMul_eq (P : Mat ℝ 3 4) (x : Vec ℝ 3) : camMul P x = (cam33 P).mulVec x + camCol P := by
  ext i
  simp [camMul, cam33, camCol, Matrix.mulVec, dotProduct, Fin.sum_univ_three, Fin.sum_univ_four]

end Ubitrack.ProjectionFunction

import Verif.Spec.FunctionComposition
import Verif.Proofs.Jacobian

/-!
# Composition of function objects: helper lemmas
-/

namespace Ubitrack.FunctionComposition

open Spec

variable {N : ℕ}

/-- The stored results of all arguments are up to date. -/
def Fresh : ∀ {m : ℕ}, Node ℝ N m → Vec ℝ N → Prop
  | _, .param _ _ _, _ => True
  | _, .fixed _, _ => True
  | _, .bind1 _ x _, p => Fresh x p ∧ x.value p = denote x p
  | _, .bind2 _ x y _, p => (Fresh x p ∧ x.value p = denote x p) ∧ (Fresh y p ∧ y.value p = denote y p)

theorem evaluateInternal_spec (p : Vec ℝ N) : ∀ {m : ℕ} (n : Node ℝ N m),
    Fresh (n.evaluateInternal p) p ∧ (n.evaluateInternal p).value p = denote n p ∧ denote (n.evaluateInternal p) p = denote n p := by
  intro m n
  induction n with
  | param s n h => exact ⟨trivial, rfl, rfl⟩
  | fixed v => exact ⟨trivial, rfl, rfl⟩
  | bind1 f x r ih =>
    obtain ⟨h1, h2, h3⟩ := ih
    refine ⟨⟨h1, ?_⟩, ?_, ?_⟩
    · rw [h2, h3]
    · show f.evaluate ((x.evaluateInternal p).value p) = f.evaluate (denote x p)
      rw [h2]
    · simp only [Node.evaluateInternal, denote, h3]
  | bind2 f x y r ihx ihy =>
    obtain ⟨h1, h2, h3⟩ := ihx
    obtain ⟨k1, k2, k3⟩ := ihy
    refine ⟨⟨⟨h1, ?_⟩, ⟨k1, ?_⟩⟩, ?_, ?_⟩
    · rw [h2, h3]
    · rw [k2, k3]
    · show f.evaluate ((x.evaluateInternal p).value p) ((y.evaluateInternal p).value p) = f.evaluate (denote x p) (denote y p)
      rw [h2, k2]
    · simp only [Node.evaluateInternal, denote, h3, k3]

/-- The two expressions differ in stored results only. -/
inductive SameShape : ∀ {m : ℕ}, Node ℝ N m → Node ℝ N m → Prop
  | param (s n : ℕ) (h : s + n ≤ N) : SameShape (.param s n h) (.param s n h)
  | fixed {n : ℕ} (v : Vec ℝ n) : SameShape (.fixed v) (.fixed v)
  | bind1 {a m : ℕ} (f : Fun1 ℝ a m) {x x' : Node ℝ N a} (r r' : Vec ℝ m) : SameShape x x' → SameShape (.bind1 f x r) (.bind1 f x' r')
  | bind2 {a b m : ℕ} (f : Fun2 ℝ a b m) {x x' : Node ℝ N a} {y y' : Node ℝ N b} (r r' : Vec ℝ m) :
    SameShape x x' → SameShape y y' → SameShape (.bind2 f x y r) (.bind2 f x' y' r')

theorem SameShape.refl : ∀ {m : ℕ} (n : Node ℝ N m), SameShape n n := by
  intro m n
  induction n with
  | param s n h => exact .param s n h
  | fixed v => exact .fixed v
  | bind1 f x r ih => exact .bind1 f r r ih
  | bind2 f x y r ihx ihy => exact .bind2 f r r ihx ihy

theorem sameShape_evaluateInternal (p : Vec ℝ N) : ∀ {m : ℕ} (n : Node ℝ N m), SameShape n (n.evaluateInternal p) := by
  intro m n
  induction n with
  | param s n h => exact .param s n h
  | fixed v => exact .fixed v
  | bind1 f x r ih => exact .bind1 f _ _ ih
  | bind2 f x y r ihx ihy => exact .bind2 f _ _ ihx ihy

theorem sameShape_evaluateOuter (p : Vec ℝ N) {m : ℕ} (n : Node ℝ N m) : SameShape n (n.evaluateOuter p).1 := by
  cases n with
  | param s n h => exact .param s m h
  | fixed v => exact .fixed v
  | bind1 f x r => exact .bind1 f _ _ (sameShape_evaluateInternal p x)
  | bind2 f x y r => exact .bind2 f _ _ (sameShape_evaluateInternal p x) (sameShape_evaluateInternal p y)

theorem SameShape.denote_eq {m : ℕ} {n n' : Node ℝ N m} (h : SameShape n n') : denote n = denote n' := by
  induction h with
  | param s n h => rfl
  | fixed v => rfl
  | bind1 f r r' _ ih => funext p; simp only [denote, ih]
  | bind2 f r r' _ _ ihx ihy => funext p; simp only [denote, ihx, ihy]

theorem SameShape.uses_eq {m : ℕ} {n n' : Node ℝ N m} (h : SameShape n n') : Uses n = Uses n' := by
  induction h with
  | param s n h => rfl
  | fixed v => rfl
  | bind1 f r r' _ ih => funext c; simp only [Uses, ih]
  | bind2 f r r' _ _ ihx ihy => funext c; simp only [Uses, ihx, ihy]

theorem SameShape.usedOnce {m : ℕ} {n n' : Node ℝ N m} (h : SameShape n n') : UsedOnce n ↔ UsedOnce n' := by
  induction h with
  | param s n h => rfl
  | fixed v => rfl
  | bind1 f r r' _ ih => exact ih
  | bind2 f r r' hx hy ihx ihy => simp only [UsedOnce, ihx, ihy, hx.uses_eq, hy.uses_eq]

theorem SameShape.allCorrect {k m : ℕ} {n n' : Node ℝ N m} (h : SameShape n n') (p : Vec ℝ N) :
    AllCorrect k n p ↔ AllCorrect k n' p := by
  induction h with
  | param s n h => rfl
  | fixed v => rfl
  | bind1 f r r' hx ih => simp only [AllCorrect, ih, hx.denote_eq]
  | bind2 f r r' hx hy ihx ihy => simp only [AllCorrect, ihx, ihy, hx.denote_eq, hy.denote_eq]

theorem fresh_evaluateOuter (p : Vec ℝ N) {m : ℕ} (n : Node ℝ N m) : Fresh (n.evaluateOuter p).1 p := by
  cases n with
  | param s n h => exact trivial
  | fixed v => exact trivial
  | bind1 f x r =>
    obtain ⟨h1, h2, h3⟩ := evaluateInternal_spec p x
    exact ⟨h1, by rw [h2, h3]⟩
  | bind2 f x y r =>
    obtain ⟨h1, h2, h3⟩ := evaluateInternal_spec p x
    obtain ⟨k1, k2, k3⟩ := evaluateInternal_spec p y
    exact ⟨⟨h1, by rw [h2, h3]⟩, ⟨k1, by rw [k2, k3]⟩⟩

theorem evaluateOuter_value (p : Vec ℝ N) {m : ℕ} (n : Node ℝ N m) : (n.evaluateOuter p).2 = denote n p := by
  cases n with
  | param s n h => rfl
  | fixed v => rfl
  | bind1 f x r =>
    obtain ⟨h1, h2, h3⟩ := evaluateInternal_spec p x
    simp only [Node.evaluateOuter, denote, h2]
  | bind2 f x y r =>
    obtain ⟨h1, h2, h3⟩ := evaluateInternal_spec p x
    obtain ⟨k1, k2, k3⟩ := evaluateInternal_spec p y
    simp only [Node.evaluateOuter, denote, h2, k2]

theorem not_uses_of_not_wants : ∀ {m : ℕ} (n : Node ℝ N m), n.wantsJacobian = false → ∀ c, ¬ Uses n c := by
  intro m n
  induction n with
  | param s n h => intro h; simp [Node.wantsJacobian] at h
  | fixed v => intro _ c h; exact h
  | bind1 f x r ih => exact fun h => ih h
  | bind2 f x y r ihx ihy =>
    intro h c hc
    simp only [Node.wantsJacobian, Bool.or_eq_false_iff] at h
    rcases hc with hc | hc
    · exact ihx h.1 c hc
    · exact ihy h.2 c hc

/-- The derivative of a chain of two arguments. -/
theorem isJacobian₂_comp {a b m : ℕ} {f : Vec ℝ a → Vec ℝ b → Vec ℝ m} {g : Vec ℝ N → Vec ℝ a} {h : Vec ℝ N → Vec ℝ b}
    {p : Vec ℝ N} {J1 : Mat ℝ m a} {J2 : Mat ℝ m b} {G : Mat ℝ a N} {H : Mat ℝ b N}
    (hf : IsJacobian₂ f (g p) (h p) J1 J2) (hg : IsJacobian g p G) (hh : IsJacobian h p H) :
    IsJacobian (fun p => f (g p) (h p)) p (J1 * G + J2 * H) := by
  unfold IsJacobian IsJacobian₂ at *
  have := hf.comp p (HasFDerivAt.prodMk hg hh)
  refine this.congr_fderiv ?_
  ext v
  simp [Matrix.add_mulVec, Matrix.mulVec_mulVec]

open Classical in
theorem multiplyJacobian_spec {k : ℕ} (p : Vec ℝ N) : ∀ {m : ℕ} (n : Node ℝ N m), UsedOnce n → AllCorrect k n p → Fresh n p →
    ∃ J, IsJacobian (denote n) p J ∧ (∀ c, ¬ Uses n c → ∀ r, J r c = 0) ∧
      ∀ (l : Mat ℝ k m) (j : Mat ℝ k N) r c, n.multiplyJacobian p l j r c = if Uses n c then (l * J) r c else j r c := by
  intro m n
  induction n with
  | param s n h =>
    intro _ _ _
    refine ⟨Matrix.of fun i c => if c.val = s + i.val then 1 else 0, ?_, ?_, ?_⟩
    · unfold IsJacobian
      let L : Vec ℝ N →L[ℝ] Vec ℝ n :=
        LinearMap.toContinuousLinearMap { toFun := denote (Node.param s n h), map_add' := fun _ _ => rfl, map_smul' := fun _ _ => rfl }
      refine (L.hasFDerivAt (x := p)).congr_fderiv ?_
      ext v i
      simp only [LinearMap.coe_toContinuousLinearMap', Matrix.mulVecLin_apply, Matrix.mulVec, dotProduct, Matrix.of_apply,
        ite_mul, one_mul, zero_mul]
      rw [Finset.sum_eq_single (⟨s + i, by omega⟩ : Fin N)]
      · simp [L, denote]
      · intro c _ hc
        rw [if_neg]
        intro e
        exact hc (Fin.ext e)
      · simp
    · intro c hc r
      simp only [Matrix.of_apply]
      rw [if_neg]
      intro e
      exact hc ⟨by omega, by omega⟩
    · intro l j r c
      by_cases hc : s ≤ c.val ∧ c.val < s + n
      · have hu : Uses (Node.param s n h : Node ℝ N n) c := hc
        simp only [Node.multiplyJacobian, Matrix.of_apply, hc, and_self, ↓reduceDIte, hu, ↓reduceIte, Matrix.mul_apply]
        rw [Finset.sum_eq_single (⟨c.val - s, by omega⟩ : Fin n)]
        · rw [if_pos (by simp; omega), mul_one]
        · intro i _ hi
          rw [if_neg, mul_zero]
          intro e
          apply hi
          apply Fin.ext
          simp
          omega
        · simp
      · have hu : ¬ Uses (Node.param s n h : Node ℝ N n) c := hc
        simp only [Node.multiplyJacobian, Matrix.of_apply, hc, ↓reduceDIte, hu, ↓reduceIte]
  | fixed v =>
    intro _ _ _
    refine ⟨0, ?_, fun _ _ _ => rfl, ?_⟩
    · unfold IsJacobian
      refine (hasFDerivAt_const v p).congr_fderiv ?_
      ext; simp
    · intro l j r c
      simp [Node.multiplyJacobian, Uses]
  | bind1 f x res ih =>
    intro h1 h2 h3
    obtain ⟨Jx, hx1, hx2, hx3⟩ := ih h1 h2.1 h3.1
    obtain ⟨Jf, hf1, hf2⟩ := h2.2
    refine ⟨Jf * Jx, IsJacobian.comp hf1 hx1, ?_, ?_⟩
    · intro c hc r
      simp only [Matrix.mul_apply, hx2 c hc, mul_zero, Finset.sum_const_zero]
    · intro l j r c
      by_cases hw : x.wantsJacobian
      · have hm : (Node.bind1 f x res).multiplyJacobian p l j = x.multiplyJacobian p (f.multiplyJacobian1 l (x.value p)) j := by
          simp only [Node.multiplyJacobian, hw, ↓reduceIte]
        rw [hm, hx3, h3.2, hf2, Matrix.mul_assoc]
        rfl
      · have := not_uses_of_not_wants x (by simpa using hw) c
        simp [Node.multiplyJacobian, hw, Uses, this]
  | bind2 f x y res ihx ihy =>
    intro h1 h2 h3
    obtain ⟨Jx, hx1, hx2, hx3⟩ := ihx h1.1 h2.1 h3.1.1
    obtain ⟨Jy, hy1, hy2, hy3⟩ := ihy h1.2.1 h2.2.1 h3.2.1
    obtain ⟨J1, J2, hf1, hf2, hf3⟩ := h2.2.2
    refine ⟨J1 * Jx + J2 * Jy, isJacobian₂_comp hf1 hx1 hy1, ?_, ?_⟩
    · intro c hc r
      have hcx : ¬ Uses x c := fun h => hc (Or.inl h)
      have hcy : ¬ Uses y c := fun h => hc (Or.inr h)
      simp only [Matrix.add_apply, Matrix.mul_apply, hx2 c hcx, hy2 c hcy, mul_zero, Finset.sum_const_zero, add_zero]
    · intro l j r c
      have ex : ∀ j : Mat ℝ k N, (if x.wantsJacobian then x.multiplyJacobian p (f.multiplyJacobian1 l (x.value p) (y.value p)) j else j) r c
          = if Uses x c then (l * J1 * Jx) r c else j r c := by
        intro j
        by_cases hw : x.wantsJacobian
        · simp only [hw, ↓reduceIte, hx3, h3.1.2, h3.2.2, hf2]
        · have := not_uses_of_not_wants x (by simpa using hw) c
          simp [hw, this]
      have ey : ∀ j : Mat ℝ k N, (if y.wantsJacobian then y.multiplyJacobian p (f.multiplyJacobian2 l (x.value p) (y.value p)) j else j) r c
          = if Uses y c then (l * J2 * Jy) r c else j r c := by
        intro j
        by_cases hw : y.wantsJacobian
        · simp only [hw, ↓reduceIte, hy3, h3.1.2, h3.2.2, hf3]
        · have := not_uses_of_not_wants y (by simpa using hw) c
          simp [hw, this]
      have hm : (Node.bind2 f x y res).multiplyJacobian p l j r c
          = if Uses y c then (l * J2 * Jy) r c else if Uses x c then (l * J1 * Jx) r c else j r c := by
        simp only [Node.multiplyJacobian]
        rw [ey, ex]
      rw [hm, Matrix.mul_add, Matrix.add_apply, ← Matrix.mul_assoc, ← Matrix.mul_assoc]
      by_cases hcy : Uses y c
      · have hcx : ¬ Uses x c := fun h => h1.2.2 c ⟨h, hcy⟩
        have : (l * J1 * Jx) r c = 0 := by
          rw [Matrix.mul_apply]
          apply Finset.sum_eq_zero
          intro i _
          rw [hx2 c hcx, mul_zero]
        simp [hcy, Uses, this]
      · have : (l * J2 * Jy) r c = 0 := by
          rw [Matrix.mul_apply]
          apply Finset.sum_eq_zero
          intro i _
          rw [hy2 c hcy, mul_zero]
        by_cases hcx : Uses x c
        · simp [hcx, hcy, Uses, this]
        · simp [hcx, hcy, Uses]

end Ubitrack.FunctionComposition

import Verif.Spec.Jacobian
import Verif.Model.FunctionComposition
import Mathlib.Analysis.Calculus.FDeriv.Prod

/-!
# Specification: composition of functions and its derivative
-/

namespace Ubitrack.Spec

open FunctionComposition

/-- `J1`, `J2` are the partial derivatives (together the derivative) of a function of two vectors. -/
def IsJacobian₂ {a b m : ℕ} (f : Vec ℝ a → Vec ℝ b → Vec ℝ m) (x : Vec ℝ a) (y : Vec ℝ b) (J1 : Mat ℝ m a) (J2 : Mat ℝ m b) : Prop :=
  HasFDerivAt (fun z : Vec ℝ a × Vec ℝ b => f z.1 z.2)
    ((LinearMap.toContinuousLinearMap (Matrix.mulVecLin J1)).comp (ContinuousLinearMap.fst ℝ _ _)
      + (LinearMap.toContinuousLinearMap (Matrix.mulVecLin J2)).comp (ContinuousLinearMap.snd ℝ _ _)) (x, y)

/-- The function object multiplies left-hand sides of `k` rows with the derivative of its `evaluate`. -/
def Correct1 {a m : ℕ} (k : ℕ) (f : Fun1 ℝ a m) (x : Vec ℝ a) : Prop :=
  ∃ J, IsJacobian f.evaluate x J ∧ ∀ l : Mat ℝ k m, f.multiplyJacobian1 l x = l * J

/-- The function object multiplies left-hand sides of `k` rows with the partial derivatives of its `evaluate`. -/
def Correct2 {a b m : ℕ} (k : ℕ) (f : Fun2 ℝ a b m) (x : Vec ℝ a) (y : Vec ℝ b) : Prop :=
  ∃ J1 J2, IsJacobian₂ f.evaluate x y J1 J2 ∧ (∀ l : Mat ℝ k m, f.multiplyJacobian1 l x y = l * J1) ∧
    ∀ l : Mat ℝ k m, f.multiplyJacobian2 l x y = l * J2

/-- The mathematical function an expression stands for: nothing but the composition, without stored results. -/
def denote {N : ℕ} : ∀ {m : ℕ}, Node ℝ N m → Vec ℝ N → Vec ℝ m
  | _, .param start _ h, p => fun i => p ⟨start + i, by omega⟩
  | _, .fixed v, _ => v
  | _, .bind1 f x _, p => f.evaluate (denote x p)
  | _, .bind2 f x y _, p => f.evaluate (denote x p) (denote y p)

/-- Entry `c` of the parameter vector occurs in the expression. -/
def Uses {N : ℕ} : ∀ {m : ℕ}, Node ℝ N m → Fin N → Prop
  | _, .param start size _, c => start ≤ c.val ∧ c.val < start + size
  | _, .fixed _, _ => False
  | _, .bind1 _ x _, c => Uses x c
  | _, .bind2 _ x y _, c => Uses x c ∨ Uses y c

/-- No entry of the parameter vector occurs twice in the expression. -/
def UsedOnce {N : ℕ} : ∀ {m : ℕ}, Node ℝ N m → Prop
  | _, .param _ _ _ => True
  | _, .fixed _ => True
  | _, .bind1 _ x _ => UsedOnce x
  | _, .bind2 _ x y _ => UsedOnce x ∧ UsedOnce y ∧ ∀ c, ¬ (Uses x c ∧ Uses y c)

/-- All function objects of the expression are correct where they are evaluated. -/
def AllCorrect {N : ℕ} (k : ℕ) : ∀ {m : ℕ}, Node ℝ N m → Vec ℝ N → Prop
  | _, .param _ _ _, _ => True
  | _, .fixed _, _ => True
  | _, .bind1 f x _, p => AllCorrect k x p ∧ Correct1 k f (denote x p)
  | _, .bind2 f x y _, p => AllCorrect k x p ∧ AllCorrect k y p ∧ Correct2 k f (denote x p) (denote y p)

end Ubitrack.Spec

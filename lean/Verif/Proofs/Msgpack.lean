import Verif.Model.Msgpack
import Mathlib.Data.List.OfFn
import Mathlib.Data.Fin.Tuple.Basic
import Mathlib.Tactic.Ring
import Mathlib.Tactic.Linarith

/-! # Proof machinery for MessagePack conversion -/

namespace Ubitrack.Msgpack

variable {K α : Type}

/-- The items `ts` are one complete object `o`, whatever follows. -/
def Parses (ts : List (Tok K)) (o : Obj K) : Prop :=
  ∀ (f : ℕ) (rest : List (Tok K)), ts.length ≤ f → parse f (ts ++ rest) = some (o, rest)

theorem parses_num (x : K) : Parses [.num x] (.num x) := by
  intro f rest h
  obtain ⟨f, rfl⟩ : ∃ g, f = g + 1 := ⟨f - 1, by simp at h; omega⟩
  rfl

theorem parses_int (z : ℕ) : Parses (K := K) [.int z] (.int z) := by
  intro f rest h
  obtain ⟨f, rfl⟩ : ∃ g, f = g + 1 := ⟨f - 1, by simp at h; omega⟩
  rfl

theorem parses_nil : Parses (K := K) [.nil] .nil := by
  intro f rest h
  obtain ⟨f, rfl⟩ : ∃ g, f = g + 1 := ⟨f - 1, by simp at h; omega⟩
  rfl

theorem parseMany_list {β : Type} (pe : β → List (Tok K)) (mk : β → Obj K) (l : List β)
    (h : ∀ x ∈ l, Parses (pe x) (mk x)) (f : ℕ) (rest : List (Tok K))
    (hf : (l.flatMap pe).length ≤ f) :
    parseMany (parse f) l.length (l.flatMap pe ++ rest) = some (l.map mk, rest) := by
  induction l generalizing f with
  | nil => rfl
  | cons a as ih =>
    rw [List.flatMap_cons, List.length_append] at hf
    rw [List.flatMap_cons, List.append_assoc]
    simp only [List.length_cons, parseMany]
    rw [h a (by simp) f _ (by omega)]
    simp only
    rw [ih (fun x hx => h x (by simp [hx])) f (by omega)]
    rfl

theorem parses_arr {β : Type} (pe : β → List (Tok K)) (mk : β → Obj K) (l : List β)
    (h : ∀ x ∈ l, Parses (pe x) (mk x)) :
    Parses (.arr l.length :: l.flatMap pe) (.arr (l.map mk)) := by
  intro f rest hf
  obtain ⟨f, rfl⟩ : ∃ g, f = g + 1 := ⟨f - 1, by simp at hf; omega⟩
  simp only [List.cons_append, parse]
  rw [parseMany_list pe mk l h f rest (by simpa using hf)]

theorem collect_ok {n : ℕ} {β : Type} {f : Fin n → Except Err β} {g : Fin n → β}
    (h : ∀ i, f i = .ok (g i)) : collect f = .ok g := by
  induction n with
  | zero => simp only [collect]; congr; funext i; exact i.elim0
  | succ n ih =>
    simp only [collect, h 0]
    rw [ih (f := fun i => f i.succ) (g := fun i => g i.succ) (fun i => h i.succ)]
    simp only
    congr
    exact Fin.cons_self_tail g

theorem of_collect_ok {n : ℕ} {β : Type} {f : Fin n → Except Err β} {g : Fin n → β}
    (h : collect f = .ok g) : ∀ i, f i = .ok (g i) := by
  induction n with
  | zero => intro i; exact i.elim0
  | succ n ih =>
    simp only [collect] at h
    rcases h0 : f 0 with e | a
    · rw [h0] at h; cases h
    · rw [h0] at h
      simp only at h
      rcases h1 : collect (fun i => f i.succ) with e | g'
      · rw [h1] at h; cases h
      · rw [h1] at h
        simp only [Except.ok.injEq] at h
        subst h
        intro i
        refine Fin.cases ?_ (fun j => ?_) i
        · simpa using h0
        · simpa using ih h1 j

theorem at_ofFn {n : ℕ} (f : Fin n → Obj K) (i : Fin n) : at' (List.ofFn f) i = .ok (f i) := by
  unfold at'
  rw [List.getElem?_ofFn]
  simp

theorem parses_vec {n : ℕ} (pe : α → List (Tok K)) (mk : α → Obj K)
    (h : ∀ x, Parses (pe x) (mk x)) (v : Fin n → α) :
    Parses (packVec pe v) (.arr (List.ofFn fun i => mk (v i))) := by
  have := parses_arr pe mk (List.ofFn v) (fun x _ => h x)
  rw [List.length_ofFn, List.map_ofFn] at this
  exact this

theorem convertVec_ofFn {n : ℕ} (ce : Obj K → Except Err α) (mk : α → Obj K)
    (h : ∀ x, ce (mk x) = .ok x) (v : Fin n → α) :
    convertVec ce (.arr (List.ofFn fun i => mk (v i))) = .ok v := by
  unfold convertVec
  simp only [List.length_ofFn, ne_eq, not_true_eq_false, if_false]
  apply collect_ok
  intro i
  rw [at_ofFn]
  exact h (v i)

/-- The row-major list of the entries of a matrix. -/
def entries {m n : ℕ} (mk : α → Obj K) (A : Mat α m n) : List (Obj K) :=
  (List.ofFn fun i : Fin m => List.ofFn fun j : Fin n => mk (A i j)).flatten

theorem entries_length {m n : ℕ} (mk : α → Obj K) (A : Mat α m n) :
    (entries mk A).length = m * n := by
  unfold entries
  rw [List.length_flatten, List.map_ofFn]
  have : (List.length ∘ fun i : Fin m => List.ofFn fun j : Fin n => mk (A i j)) = fun _ => n := by
    funext i; simp
  rw [this, List.ofFn_const, List.sum_replicate]
  simp

theorem entries_get {m n : ℕ} (mk : α → Obj K) (A : Mat α m n) (i : Fin m) (j : Fin n) :
    (entries mk A)[(i : ℕ) * n + j]? = some (mk (A i j)) := by
  have hn : 0 < n := j.pos
  let f : Fin (m * n) → Obj K := fun k => mk (A ⟨k / n, Nat.div_lt_of_lt_mul (by
    have := k.isLt; calc (k : ℕ) < m * n := this
      _ = n * m := Nat.mul_comm _ _)⟩ ⟨k % n, Nat.mod_lt _ hn⟩)
  have he : entries mk A = List.ofFn f := by
    rw [List.ofFn_mul]
    unfold entries
    congr 1
    congr 1
    funext a
    congr 1
    funext b
    have h1 : ((a : ℕ) * n + b) / n = a := by
      rw [Nat.mul_comm, Nat.mul_add_div hn, Nat.div_eq_of_lt b.isLt, Nat.add_zero]
    have h2 : ((a : ℕ) * n + b) % n = b := by
      rw [Nat.mul_comm, Nat.mul_add_mod, Nat.mod_eq_of_lt b.isLt]
    simp only [f]
    congr 2
    · exact Fin.ext h1.symm
    · exact Fin.ext h2.symm
  have hlt : (i : ℕ) * n + j < m * n := by
    calc (i : ℕ) * n + j < i * n + n := by have := j.isLt; omega
      _ = (i + 1) * n := by ring
      _ ≤ m * n := Nat.mul_le_mul_right _ i.isLt
  rw [he, List.getElem?_ofFn, dif_pos hlt]
  have h1 : ((i : ℕ) * n + j) / n = i := by
    rw [Nat.mul_comm, Nat.mul_add_div hn, Nat.div_eq_of_lt j.isLt, Nat.add_zero]
  have h2 : ((i : ℕ) * n + j) % n = j := by
    rw [Nat.mul_comm, Nat.mul_add_mod, Nat.mod_eq_of_lt j.isLt]
  simp only [f]
  congr 3
  · exact Fin.ext h1
  · exact Fin.ext h2

theorem flatten_ofFn_flatMap {n : ℕ} {β γ : Type} (pe : β → List γ) (v : Fin n → β) :
    (List.ofFn fun j => pe (v j)).flatten = (List.ofFn v).flatMap pe := by
  rw [List.flatMap_def, List.map_ofFn]; rfl

theorem packMat_eq {m n : ℕ} (pe : α → List (Tok K)) (A : Mat α m n) (h : m * n ≠ 0) :
    packMat pe A = .ok (.arr (m * n) :: ((List.ofFn fun i : Fin m => List.ofFn fun j : Fin n =>
      A i j).flatten).flatMap pe) := by
  unfold packMat
  rw [if_neg h]
  congr 2
  have hf : ∀ L : List (List α), L.flatten.flatMap pe = (L.map (fun l => l.flatMap pe)).flatten := by
    intro L
    induction L with
    | nil => rfl
    | cons a as ih => rw [List.flatten_cons, List.flatMap_append, ih]; rfl
  rw [hf, List.map_ofFn]
  congr 1
  congr 1
  funext i
  exact flatten_ofFn_flatMap pe (A i)

theorem parses_mat {m n : ℕ} (pe : α → List (Tok K)) (mk : α → Obj K)
    (h : ∀ x, Parses (pe x) (mk x)) (A : Mat α m n) (h0 : m * n ≠ 0) :
    ∃ ts, packMat pe A = .ok ts ∧ Parses ts (.arr (entries mk A)) := by
  refine ⟨_, packMat_eq pe A h0, ?_⟩
  have := parses_arr pe mk ((List.ofFn fun i : Fin m => List.ofFn fun j : Fin n => A i j).flatten)
    (fun x _ => h x)
  have hl : ((List.ofFn fun i : Fin m => List.ofFn fun j : Fin n => A i j).flatten).length = m * n := by
    rw [List.length_flatten, List.map_ofFn]
    have : (List.length ∘ fun i : Fin m => List.ofFn fun j : Fin n => A i j) = fun _ => n := by
      funext i; simp
    rw [this, List.ofFn_const, List.sum_replicate]
    simp
  rw [hl] at this
  have he : ((List.ofFn fun i : Fin m => List.ofFn fun j : Fin n => A i j).flatten).map mk =
      entries mk A := by
    unfold entries
    rw [List.map_flatten, List.map_ofFn]
    congr 2
    funext i
    simp only [Function.comp_apply, List.map_ofFn]
    rfl
  rw [he] at this
  exact this

/-- Conversion of a matrix whose element index is right: square matrices and row vectors. -/
theorem convertMat_entries {m n : ℕ} (ce : Obj K → Except Err α) (mk : α → Obj K)
    (h : ∀ x, ce (mk x) = .ok x) (A : Mat α m n) (h0 : m * n ≠ 0) (hsq : m = n ∨ m = 1) :
    convertMat ce (.arr (entries mk A)) = .ok A := by
  unfold convertMat
  simp only [entries_length, ne_eq, not_true_eq_false, if_neg h0]
  apply collect_ok
  intro i
  apply collect_ok
  intro j
  have hi : (i : ℕ) * m + j = i * n + j := by
    rcases hsq with rfl | rfl
    · rfl
    · have : (i : ℕ) = 0 := by omega
      rw [this]; simp
  unfold at'
  rw [hi, entries_get]
  exact h (A i j)

/-- `pe`/`ce` form a lossless pair for the value `x`. -/
def Lossless (toks : Except Err (List (Tok K))) (ce : Obj K → Except Err α) (x : α) : Prop :=
  ∃ ts o, toks = .ok ts ∧ Parses ts o ∧ ce o = .ok x

theorem lossless_read {toks : Except Err (List (Tok K))} {ce : Obj K → Except Err α} {x : α}
    (h : Lossless toks ce x) (rest : List (Tok K)) (target : α) :
    ∃ ts, toks = .ok ts ∧ readInto (fun o _ => ce o) (ts ++ rest) target = .ok x := by
  obtain ⟨ts, o, h1, h2, h3⟩ := h
  refine ⟨ts, h1, ?_⟩
  unfold readInto
  rw [h2 _ rest (by simp)]
  exact h3

end Ubitrack.Msgpack

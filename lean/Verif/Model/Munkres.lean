import Mathlib.Algebra.Order.Group.Defs

/-!
# Model of `utMath/Graph/Munkres.h`

Matrices are functions of two indices, used below their size only. `T` is an ordered commutative
group `K` (`double` is idealised). `row_mask` and `col_mask` are predicates on indices.
-/

namespace Ubitrack.Munkres

variable {K : Type*} [AddCommGroup K] [LinearOrder K]

/-- src/utMath/Graph/Munkres.h l.50-52: entries of the mask matrix. -/
inductive Z where
  | normal
  | star
  | prime
  deriving DecidableEq

/-- src/utMath/Graph/Munkres.h l.114-119 and the local variable `step` of `solve`. -/
structure St (K : Type*) where
  mask : ℕ → ℕ → Z
  mat : ℕ → ℕ → K
  rowMask : ℕ → Bool
  colMask : ℕ → Bool
  saverow : ℕ
  savecol : ℕ
  max : ℕ
  step : ℕ

/-- `f( row, col ) = v`. -/
def upd {α : Type*} (f : ℕ → ℕ → α) (row col : ℕ) (v : α) : ℕ → ℕ → α :=
  fun r c => if r = row ∧ c = col then v else f r c

/-- `f[ i ] = v`. -/
def upd1 {α : Type*} (f : ℕ → α) (i : ℕ) (v : α) : ℕ → α :=
  fun j => if j = i then v else f j

/-- src/utMath/Graph/Munkres.h l.139-149: `find_uncovered_in_matrix( 0, .. )`. The loop variables
`row` and `col` hide the parameters of the same name, so the parameters are not assigned; only the
returned flag is modelled. -/
def findUncovered (s : St K) : Bool :=
  (List.range s.max).any fun row => !s.rowMask row &&
    (List.range s.max).any fun col => !s.colMask col && decide (s.mat row col = 0)

/-- src/utMath/Graph/Munkres.h l.166-184: body of the loops of `step1`. -/
def step1Cell (max : ℕ) (mat : ℕ → ℕ → K) (mask : ℕ → ℕ → Z) (row col : ℕ) : ℕ → ℕ → Z :=
  if mat row col = 0 then
    let isstarred := (List.range max).any fun nrow => decide (mask nrow col = .star)
    let isstarred := isstarred || (List.range max).any fun ncol => decide (mask row ncol = .star)
    if !isstarred then upd mask row col .star else mask
  else mask

/-- src/utMath/Graph/Munkres.h l.161-187: `step1`. -/
def step1 (s : St K) : St K :=
  { s with
    mask := (List.range s.max).foldl (fun mask row =>
      (List.range s.max).foldl (fun mask col => step1Cell s.max s.mat mask row col) mask) s.mask
    step := 2 }

/-- src/utMath/Graph/Munkres.h l.189-204: `step2`. -/
def step2 (s : St K) : St K :=
  let covercount := ((List.range s.max).map fun row =>
    ((List.range s.max).filter fun col => decide (s.mask row col = .star)).length).sum
  { s with
    colMask := fun col => s.colMask col ||
      (List.range s.max).any fun row => decide (col < s.max) && decide (s.mask row col = .star)
    step := if covercount ≥ s.max then 0 else 3 }

/-- src/utMath/Graph/Munkres.h l.206-229: `step3`. -/
def step3 (s : St K) : St K :=
  if findUncovered s then
    let mask := upd s.mask s.saverow s.savecol .prime
    match (List.range s.max).find? fun ncol => decide (mask s.saverow ncol = .star) with
    | some ncol => { s with
        mask := mask
        rowMask := upd1 s.rowMask s.saverow true
        colMask := upd1 s.colMask ncol false
        step := 3 }
    | none => { s with mask := mask, step := 4 }
  else { s with step := 5 }

/-- src/utMath/Graph/Munkres.h l.253-283: the alternating sequence; `col` is the current column,
`seq` the sequence so far. Every round adds a new pair of indices below `max`, so `max * max` rounds
(the first argument) are enough. -/
def sequence (mask : ℕ → ℕ → Z) (max : ℕ) : ℕ → ℕ → List (ℕ × ℕ) → List (ℕ × ℕ)
  | 0, _, seq => seq
  | fuel + 1, col, seq =>
    match (List.range max).find? fun row => decide (mask row col = .star ∧ (row, col) ∉ seq) with
    | none => seq
    | some row =>
      let seq := seq ++ [(row, col)]
      match (List.range max).find? fun col => decide (mask row col = .prime ∧ (row, col) ∉ seq) with
      | none => seq
      | some col => sequence mask max fuel col (seq ++ [(row, col)])

/-- src/utMath/Graph/Munkres.h l.285-296: unstar or star one element of the sequence. -/
def flip (mask : ℕ → ℕ → Z) (p : ℕ × ℕ) : ℕ → ℕ → Z :=
  let mask := if mask p.1 p.2 = .star then upd mask p.1 p.2 .normal else mask
  if mask p.1 p.2 = .prime then upd mask p.1 p.2 .star else mask

/-- src/utMath/Graph/Munkres.h l.231-314: `step4`. -/
def step4 (s : St K) : St K :=
  let seq := sequence s.mask s.max (s.max * s.max) s.savecol [(s.saverow, s.savecol)]
  let mask := seq.foldl flip s.mask
  { s with
    mask := fun r c => if r < s.max ∧ c < s.max ∧ mask r c = .prime then .normal else mask r c
    rowMask := fun _ => false
    colMask := fun _ => false
    step := 2 }

/-- src/utMath/Graph/Munkres.h l.316-354: `step5`. -/
def step5 (s : St K) : St K :=
  let h := (List.range s.max).foldl (fun h row =>
    if !s.rowMask row then
      (List.range s.max).foldl (fun h col =>
        if !s.colMask col then
          if (h > s.mat row col ∧ s.mat row col ≠ 0) ∨ h = 0 then s.mat row col else h
        else h) h
    else h) 0
  { s with
    mat := fun row col =>
      let x := if s.rowMask row then s.mat row col + h else s.mat row col
      if !s.colMask col then x - h else x
    step := 3 }

/-- src/utMath/Graph/Munkres.h l.427-450: one round of the loop of `solve`. -/
def step (s : St K) : St K :=
  match s.step with
  | 1 => step1 s
  | 2 => step2 s
  | 3 => step3 s
  | 4 => step4 s
  | 5 => step5 s
  | _ => s

/-- `n` rounds. -/
def rounds : ℕ → St K → St K
  | 0, s => s
  | n + 1, s => rounds n (step s)

/-- src/utMath/Graph/Munkres.h l.359-368: the maximum of 0 and all entries. -/
def vMax (size1 size2 : ℕ) (C : ℕ → ℕ → K) : K :=
  (List.range size1).foldl (fun v row =>
    (List.range size2).foldl (fun v col => if C row col > v then C row col else v) v) 0

/-- src/utMath/Graph/Munkres.h l.370-388: extension to a square matrix. `none` is an uninitialised
cell. `ublas::subrange` takes first and last+1 indices; the code passes first index and size. If the
last index is below the first, the assignment is undefined behaviour (`none` for the whole). -/
def pad (size1 size2 : ℕ) (C : ℕ → ℕ → K) : Option (ℕ × (ℕ → ℕ → Option K)) :=
  if size1 = size2 then some (size1, fun r c => some (C r c))
  else if size1 > size2 then
    if size1 - size2 < size2 then none
    else some (size1, fun r c =>
      if c < size2 then some (C r c)
      else if c < size1 - size2 then some (vMax size1 size2 C) else none)
  else
    if size2 - size1 < size1 then none
    else some (size2, fun r c =>
      if r < size1 then some (C r c)
      else if r < size2 - size1 then some (vMax size1 size2 C) else none)

/-- src/utMath/Graph/Munkres.h l.393-400: the minimum of a row, starting from `vMax`. -/
def rowMin (v : K) (m : ℕ) (C : ℕ → ℕ → K) (row : ℕ) : K :=
  (List.range m).foldl (fun min col => if C row col < min then C row col else min) v

open Classical in
/-- src/utMath/Graph/Munkres.h l.356-410: `setMatrix`, followed by the initialisation in `solve`
(l.415-425). `none` when an uninitialised cell is read. -/
noncomputable def setMatrix (size1 size2 : ℕ) (C : ℕ → ℕ → K) : Option (St K) :=
  match pad size1 size2 C with
  | none => none
  | some (m, P) =>
    if ∃ r < m, ∃ c < m, P r c = none then none
    else
      let A : ℕ → ℕ → K := fun r c => (P r c).getD 0
      some {
        mask := fun _ _ => .normal
        mat := fun r c => A r c - rowMin (vMax size1 size2 C) m A r
        rowMask := fun _ => false
        colMask := fun _ => false
        saverow := 0
        savecol := 0
        max := m
        step := 1 }

/-- `solve()` ends after finitely many rounds, in state `t`. -/
def SolvesTo (s t : St K) : Prop := ∃ n, rounds n s = t ∧ t.step = 0

/-- src/utMath/Graph/Munkres.h l.459-482: `getRowMatchList`. -/
def rowMatchList (s : St K) : List ℕ :=
  (List.range s.max).filterMap fun row =>
    (List.range s.max).find? fun col => decide (s.mask row col = .star)

/-- src/utMath/Graph/Munkres.h l.484-507: `getColMatchList`. -/
def colMatchList (s : St K) : List ℕ :=
  (List.range s.max).filterMap fun col =>
    (List.range s.max).find? fun row => decide (s.mask row col = .star)

end Ubitrack.Munkres

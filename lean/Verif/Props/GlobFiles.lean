import Verif.Spec.GlobFiles
import Mathlib.Order.Lattice
import Mathlib.Data.List.Perm.Basic
import Mathlib.Data.Nat.Basic

/-!
# C87: finding files
-/

namespace Ubitrack.GlobFiles

open Spec

variable {P : Type}

/-- What one pass appends. -/
def keep (fs : FileSystem P) (pattern : List Char → Bool) (globDirectories : Bool) (p : P) : Bool :=
  (fs.exists_ p && !fs.isDirectory p && pattern (fs.filename p)) || (globDirectories && fs.exists_ p && fs.isDirectory p)

theorem foldl_visit (fs : FileSystem P) (pattern : List Char → Bool) (g : Bool) (l files : List P) :
    l.foldl (visit fs pattern g) files = files ++ l.filter (keep fs pattern g) := by
  induction l generalizing files with
  | nil => simp
  | cons p l ih =>
    rw [List.foldl_cons, ih, List.filter_cons]
    unfold visit keep
    cases h1 : (fs.exists_ p && !fs.isDirectory p && pattern (fs.filename p)) <;>
      cases h2 : (g && fs.exists_ p && fs.isDirectory p) <;> simp

theorem matchExtension_iff (words : List String) (name : List Char) :
    matchExtension (words.map String.toList) name = true ↔ HasExtension words name := by
  unfold HasExtension
  induction name with
  | nil => simp [matchExtension]
  | cons c rest ih =>
    simp only [matchExtension, Bool.or_eq_true, Bool.and_eq_true, beq_iff_eq, List.contains_iff_mem, List.mem_map, ih]
    constructor
    · rintro (⟨rfl, w, hw, rfl⟩ | ⟨stem, w, hw, rfl⟩)
      · exact ⟨[], w, hw, rfl⟩
      · exact ⟨c :: stem, w, hw, rfl⟩
    · rintro ⟨stem, w, hw, h⟩
      cases stem with
      | nil =>
        simp only [List.nil_append, List.cons.injEq] at h
        exact Or.inl ⟨h.1, w, hw, h.2.symm⟩
      | cons d stem =>
        simp only [List.cons_append, List.cons.injEq] at h
        exact Or.inr ⟨stem, w, hw, h.2⟩

variable [LinearOrder P]

/-- The sorted list. -/
def sorted (l : List P) : List P := l.mergeSort (fun a b => decide (a ≤ b))

theorem sorted_pairwise (l : List P) : (sorted l).Pairwise (· ≤ ·) := by
  have := List.pairwise_mergeSort (le := fun a b : P => decide (a ≤ b)) (fun a b c h1 h2 => by simp at *; exact h1.trans h2)
    (fun a b => by simp; exact le_total a b) l
  unfold sorted
  simpa using this

theorem sorted_perm (l : List P) : (sorted l).Perm l := List.mergeSort_perm _ _

theorem globFiles_directory (fs : FileSystem P) (d : P) (hd : fs.isDirectory d = true) (he : fs.exists_ d = true) (pattern : List Char → Bool)
    (files : List P) (g : Bool) : globFiles fs d pattern files g =
      if files ++ (fs.entries d).filter (keep fs pattern g) = [] then none else some (sorted (files ++ (fs.entries d).filter (keep fs pattern g))) := by
  unfold globFiles
  simp only [hd, he, Bool.and_self, if_true, foldl_visit]
  rw [show ((files ++ (fs.entries d).filter (keep fs pattern g)).mergeSort fun a b => decide (a ≤ b)) = sorted (files ++ (fs.entries d).filter (keep fs pattern g)) from rfl,
    (sorted_perm _).length_eq]
  simp only [List.length_eq_zero_iff]

/-- The pattern for which `globPattern` calls `globFiles`. -/
theorem globPattern_eq (fs : FileSystem P) (d : P) (pattern : FilePattern) (files : List P)
    (hn : ∀ p ∈ fs.entries d, fs.filename p ≠ []) : ∃ m g, globPattern fs d pattern files = globFiles fs d m files g ∧
      ∀ p ∈ fs.entries d, keep fs m g p = true ↔ Wanted fs pattern p := by
  cases pattern with
  | directories =>
    refine ⟨_, _, rfl, fun p hp => ?_⟩
    have : (fs.filename p).isEmpty = false := by
      rw [List.isEmpty_eq_false_iff]
      exact hn p hp
    simp [keep, Wanted, matchEmpty, this]
  | opencvImageFiles =>
    refine ⟨_, _, rfl, fun p hp => ?_⟩
    simp only [keep, Wanted, Bool.false_and, Bool.or_false, Bool.and_eq_true, matchExtension_iff, Bool.not_eq_true', Bool.not_eq_true, and_assoc]
  | ubitrackCalibrationFiles =>
    refine ⟨_, _, rfl, fun p hp => ?_⟩
    simp only [keep, Wanted, Bool.false_and, Bool.or_false, Bool.and_eq_true, matchExtension_iff, Bool.not_eq_true', Bool.not_eq_true, and_assoc]
  | ubitrackBoostBinary =>
    refine ⟨_, _, rfl, fun p hp => ?_⟩
    simp only [keep, Wanted, Bool.false_and, Bool.or_false, Bool.and_eq_true, matchExtension_iff, Bool.not_eq_true', Bool.not_eq_true, and_assoc]

open Classical in
/-- **C87** In a directory: the list afterwards is sorted and consists of what was in it and all wanted entries of the directory, each as often
as the directory has it. The call fails exactly if this would be nothing. (File names are not empty.) -/
theorem C87_result (fs : FileSystem P) (d : P) (hd : fs.isDirectory d = true) (he : fs.exists_ d = true) (pattern : FilePattern) (files : List P)
    (hn : ∀ p ∈ fs.entries d, fs.filename p ≠ []) :
    (globPattern fs d pattern files = none ↔ files = [] ∧ ∀ p ∈ fs.entries d, ¬ Wanted fs pattern p) ∧
    ∀ r, globPattern fs d pattern files = some r →
      r.Pairwise (· ≤ ·) ∧ r.Perm (files ++ (fs.entries d).filter fun p => decide (Wanted fs pattern p)) := by
  obtain ⟨m, g, h, hk⟩ := globPattern_eq fs d pattern files hn
  have hf : (fs.entries d).filter (keep fs m g) = (fs.entries d).filter fun p => decide (Wanted fs pattern p) := by
    refine List.filter_congr fun p hp => ?_
    rw [Bool.eq_iff_iff, hk p hp, decide_eq_true_iff]
  rw [h, globFiles_directory fs d hd he, hf]
  constructor
  · split_ifs with hc
    · rw [List.append_eq_nil_iff, List.filter_eq_nil_iff] at hc
      simpa using hc
    · rw [List.append_eq_nil_iff, List.filter_eq_nil_iff] at hc
      simpa using hc
  · intro r hr
    rw [Option.ite_none_left_eq_some, Option.some.injEq] at hr
    obtain ⟨-, rfl⟩ := hr
    exact ⟨sorted_pairwise _, sorted_perm _⟩

/-- **C87** The result does not depend on the order in which the file system lists the directory. -/
theorem C87_order (fs fs' : FileSystem P) (d : P) (he : fs'.exists_ = fs.exists_) (hi : fs'.isDirectory = fs.isDirectory) (hf : fs'.filename = fs.filename)
    (hp : (fs'.entries d).Perm (fs.entries d)) (pattern : List Char → Bool) (files : List P) (g : Bool) :
    globFiles fs' d pattern files g = globFiles fs d pattern files g := by
  by_cases hd : fs.isDirectory d = true ∧ fs.exists_ d = true
  · rw [globFiles_directory fs d hd.1 hd.2, globFiles_directory fs' d (by rw [hi]; exact hd.1) (by rw [he]; exact hd.2)]
    have hk : keep fs' pattern g = keep fs pattern g := by
      funext p
      unfold keep
      rw [he, hi, hf]
    have hp' : (files ++ (fs'.entries d).filter (keep fs' pattern g)).Perm (files ++ (fs.entries d).filter (keep fs pattern g)) := by
      rw [hk]
      exact (hp.filter _).append_left files
    have hs : sorted (files ++ (fs'.entries d).filter (keep fs' pattern g)) = sorted (files ++ (fs.entries d).filter (keep fs pattern g)) :=
      ((sorted_perm _).trans (hp'.trans (sorted_perm _).symm)).eq_of_pairwise (fun a b _ _ h1 h2 => le_antisymm h1 h2) (sorted_pairwise _) (sorted_pairwise _)
    rw [hs]
    simp only [← List.length_eq_zero_iff, hp'.length_eq]
  · unfold globFiles
    rw [he, hi]
    have : (fs.isDirectory d && fs.exists_ d) = false := by
      rw [Bool.eq_false_iff]
      intro h
      rw [Bool.and_eq_true] at h
      exact hd h
    simp only [this, Bool.false_eq_true, if_false]

/-- **C87** A path that does not exist is an error. -/
theorem C87_missing (fs : FileSystem P) (d : P) (he : fs.exists_ d = false) (pattern : FilePattern) (files : List P) : globPattern fs d pattern files = none := by
  cases pattern <;> simp [globPattern, globFiles, he]

/-- **C87** Refuted: only wanted paths are added. The path of an existing file is added whatever the pattern is, also for directories. -/
theorem C87_file_refuted (fs : FileSystem P) (d : P) (hd : fs.isDirectory d = false) (he : fs.exists_ d = true) (pattern : FilePattern) (files : List P) :
    globPattern fs d pattern files = some (files ++ [d]) := by
  cases pattern <;> simp [globPattern, globFiles, he, hd]

/-- **C87** Refuted: the call fails if nothing is found. It does not if the list was not empty before (it is sorted). -/
theorem C87_nothing_refuted (fs : FileSystem P) (d : P) (hd : fs.isDirectory d = true) (he : fs.exists_ d = true) (hn : fs.entries d = []) (pattern : FilePattern)
    (x : P) : globPattern fs d pattern [x] = some [x] := by
  cases pattern <;> simp [globPattern, globFiles, he, hd, hn]

/-! ### The hypotheses are met -/

/-- A directory 0 with a picture 3, a directory 2 and a text 1; the name of the picture has two dots. -/
def exampleFs : FileSystem ℕ where
  exists_ := fun p => p < 4
  isDirectory := fun p => p == 0 || p == 2
  entries := fun p => if p = 0 then [3, 1, 2] else []
  filename := fun p => ["top", "a.txt", "sub", "b.c.png"].map String.toList |>.getD p []

example : (∀ p ∈ exampleFs.entries 0, exampleFs.filename p ≠ []) ∧ Wanted exampleFs .opencvImageFiles 3 ∧ ¬ Wanted exampleFs .opencvImageFiles 1 ∧
    Wanted exampleFs .directories 2 ∧
    globPattern exampleFs 0 .opencvImageFiles [] = some [3] ∧ globPattern exampleFs 0 .directories [] = some [2] ∧
    globPattern exampleFs 0 .ubitrackCalibrationFiles [] = none := by
  refine ⟨by decide, ⟨by decide, by decide, ?_⟩, ?_, ⟨by decide, by decide⟩, ?_, ?_, ?_⟩
  · rw [← matchExtension_iff]; decide
  · rintro ⟨_, _, h⟩
    rw [← matchExtension_iff] at h
    revert h
    decide
  all_goals decide +kernel

end Ubitrack.GlobFiles

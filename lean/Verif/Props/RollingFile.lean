import Verif.Model.RollingFile
import Verif.Spec.RollingFile
import Mathlib.Tactic.Ring
import Mathlib.Data.List.TakeWhile
import Mathlib.Data.List.Basic

/-!
# C98: log files that roll over, and programs that end in the middle of it
-/

namespace Ubitrack.RollingFile

open Spec.Rolling
open LogLayout (Text)

/-! ## Names -/

lemma slotName_injective (fn : Text) : Function.Injective (slotName fn) := by
  intro i j h
  have hd : ∀ n, Nat.toDigits 10 n ≠ [] := fun n => Nat.toDigits_ne_nil
  unfold slotName at h
  split at h <;> split at h
  · omega
  · have := congrArg List.length h; simp at this
  · have := congrArg List.length h; simp at this
  · have h2 := List.append_cancel_left h
    simp only [List.cons.injEq, true_and] at h2
    have := congrArg (fun l => Nat.ofDigitChars 10 l 0) h2
    simpa [Nat.ofDigitChars_ten_toDigits] using this

lemma slotName_zero (fn : Text) : slotName fn 0 = fn := rfl

lemma slot_ne (fn : Text) {i j : ℕ} (h : i ≠ j) : slotName fn i ≠ slotName fn j := fun e => h (slotName_injective fn e)

lemma slot_ne_base (fn : Text) (n : ℕ) : slotName fn (n + 1) ≠ fn := slot_ne fn (i := n + 1) (j := 0) (by omega)

lemma digit_ne_null {c : Char} {n : ℕ} (h : c ∈ Nat.toDigits 10 n) : c ≠ '\x00' := by
  have := Nat.isDigit_of_mem_toDigits (by norm_num) (by norm_num) h
  rintro rfl
  revert this; decide

lemma cString_name (fn : Text) (hfn : '\x00' ∉ fn) (i : ℕ) (hi : i ≠ 0) (junk : Text) :
    cString (fn ++ '.' :: (Nat.toDigits 10 i ++ '\x00' :: junk)) = slotName fn i := by
  have : fn ++ '.' :: (Nat.toDigits 10 i ++ '\x00' :: junk) = slotName fn i ++ '\x00' :: junk := by
    simp [slotName, hi]
  rw [this]
  unfold cString
  rw [List.takeWhile_append_of_pos]
  · simp
  · intro c hc
    simp only [slotName, hi, if_false, List.mem_append, List.mem_cons] at hc
    rcases hc with h | rfl | h
    · have : c ≠ '\x00' := by rintro rfl; exact hfn h
      simpa using this
    · decide
    · simpa using digit_ne_null h

/-- The renames of a roll-over. -/
def renames (fn : Text) : ℕ → List Call
  | 0 => []
  | i + 1 => .rename (slotName fn i) (slotName fn (i + 1)) :: renames fn i

lemma shift_eq (fn : Text) (hfn : '\x00' ∉ fn) (i : ℕ) (junk : Text) :
    (shift (fn.length + 1) (i + 1) (fn ++ '.' :: (Nat.toDigits 10 (i + 1) ++ '\x00' :: junk))).1 ++
      [.rename fn (cString (shift (fn.length + 1) (i + 1) (fn ++ '.' :: (Nat.toDigits 10 (i + 1) ++ '\x00' :: junk))).2)] = renames fn (i + 1) := by
  induction i generalizing junk with
  | zero =>
    have := cString_name fn hfn 1 one_ne_zero junk
    simp only [zero_add] at *
    simp only [shift, List.nil_append, renames, this, slotName_zero]
  | succ i ih =>
    obtain ⟨junk', hj⟩ : ∃ junk', overwrite (fn ++ '.' :: (Nat.toDigits 10 (i + 1 + 1) ++ '\x00' :: junk)) (fn.length + 1)
        (Nat.toDigits 10 (i + 1) ++ ['\x00']) = fn ++ '.' :: (Nat.toDigits 10 (i + 1) ++ '\x00' :: junk') := by
      unfold overwrite
      rw [show (fn ++ '.' :: (Nat.toDigits 10 (i + 1 + 1) ++ '\x00' :: junk)) =
        (fn ++ ['.']) ++ (Nat.toDigits 10 (i + 1 + 1) ++ '\x00' :: junk) by simp]
      rw [show fn.length + 1 = (fn ++ ['.']).length by simp, List.take_left]
      refine ⟨(fn ++ ['.'] ++ (Nat.toDigits 10 (i + 1 + 1) ++ '\x00' :: junk)).drop
        ((fn ++ ['.']).length + (Nat.toDigits 10 (i + 1) ++ ['\x00']).length), ?_⟩
      generalize List.drop _ _ = x
      simp only [List.append_assoc, List.cons_append, List.nil_append]
    simp only [shift, hj, List.cons_append]
    rw [ih junk', cString_name fn hfn (i + 1) (by omega), cString_name fn hfn (i + 1 + 1) (by omega)]
    rfl

lemma rollOver_eq (fn : Text) (hfn : '\x00' ∉ fn) (N : ℕ) (append : Bool) :
    rollOver fn (N + 1) append = .remove (slotName fn (N + 1)) :: (renames fn (N + 1) ++ [.openFile fn (!append)]) := by
  have h := shift_eq fn hfn N []
  have h2 := cString_name fn hfn (N + 1) (by omega) []
  unfold rollOver
  simp only [List.append_assoc, List.cons_append, gt_iff_lt, Nat.succ_pos, if_true, List.nil_append] at *
  rw [h2, ← h]
  simp

/-! ## The log -/

lemma logged_congr {fn : Text} {d d' : Disk} {n : ℕ} (h : ∀ m ≤ n, d' (slotName fn m) = d (slotName fn m)) :
    logged fn d' n = logged fn d n := by
  induction n with
  | zero => simp only [logged]; rw [show d' fn = d fn from h 0 le_rfl]
  | succ n ih => simp only [logged]; rw [h (n + 1) le_rfl, ih fun m hm => h m (by omega)]

lemma exec_rename {fn : Text} {d : Disk} {i j : ℕ} (hij : i ≠ j) (h : d (slotName fn j) = none) :
    exec d (.rename (slotName fn i) (slotName fn j)) =
      Function.update (Function.update d (slotName fn i) none) (slotName fn j) (d (slotName fn i)) := by
  simp only [exec]
  cases hi : d (slotName fn i) with
  | none =>
    simp only
    funext x
    by_cases hx : x = slotName fn j
    · subst hx; simp [h]
    · by_cases hx2 : x = slotName fn i
      · subst hx2; simp [hi, slot_ne fn hij]
      · simp [hx, hx2]
  | some f => simp only [if_neg (slot_ne fn hij)]

lemma logged_rename {fn : Text} {d : Disk} {i n : ℕ} (hn : i + 1 ≤ n) (h : d (slotName fn (i + 1)) = none) :
    logged fn (exec d (.rename (slotName fn i) (slotName fn (i + 1)))) n = logged fn d n := by
  rw [exec_rename (by omega) h]
  induction n with
  | zero => omega
  | succ n ih =>
    by_cases hni : i + 1 ≤ n
    · simp only [logged]
      rw [ih hni, Function.update_of_ne (slot_ne fn (by omega)), Function.update_of_ne (slot_ne fn (by omega))]
    · obtain rfl : n = i := by omega
      simp only [logged, Function.update_self, h, Option.getD_none, List.nil_append]
      cases n with
      | zero =>
        simp only [logged]
        have h0 : fn ≠ slotName fn (0 + 1) := slot_ne fn (i := 0) (by omega)
        rw [slotName_zero, Function.update_of_ne h0, Function.update_self]
        simp
      | succ n =>
        simp only [logged]
        rw [Function.update_of_ne (slot_ne _ (by omega)), Function.update_self]
        rw [logged_congr (d := d)]
        · simp
        · intro m hm
          rw [Function.update_of_ne (slot_ne _ (by omega)), Function.update_of_ne (slot_ne _ (by omega))]

/-- Part of the renames: the log is the same, and every file is where it was or one further. -/
lemma renames_take {fn : Text} (i k : ℕ) (d : Disk) (hv : d (slotName fn i) = none) :
    let d' := ((renames fn i).take k).foldl exec d
    (∀ n, i ≤ n → logged fn d' n = logged fn d n) ∧
    (d' fn = none ∨ d' fn = d fn) ∧
    (∀ m, d' (slotName fn (m + 1)) = none ∨ d' (slotName fn (m + 1)) = d (slotName fn (m + 1)) ∨ d' (slotName fn (m + 1)) = d (slotName fn m)) ∧
    (∀ x, (∀ m ≤ i, x ≠ slotName fn m) → d' x = d x) ∧
    (i ≤ k → d' fn = none ∧ ∀ m < i, d' (slotName fn (m + 1)) = d (slotName fn m)) := by
  induction i generalizing k d with
  | zero =>
    simp only [renames, List.take_nil, List.foldl_nil]
    refine ⟨fun _ _ => ?_, Or.inr ?_, fun m => Or.inr (Or.inl ?_), fun _ _ => ?_, fun _ => ⟨hv, fun m hm => absurd hm (by omega)⟩⟩ <;> trivial
  | succ i ih =>
    cases k with
    | zero =>
      simp only [List.take_zero, List.foldl_nil]
      refine ⟨fun _ _ => ?_, Or.inr ?_, fun m => Or.inr (Or.inl ?_), fun _ _ => ?_, fun h => absurd h (by omega)⟩ <;> trivial
    | succ k =>
      simp only [renames, List.take_succ_cons, List.foldl_cons]
      have he := exec_rename (fn := fn) (i := i) (j := i + 1) (by omega) hv
      have hl := fun n hn => logged_rename (fn := fn) (d := d) (i := i) (n := n) hn hv
      set d1 := exec d (.rename (slotName fn i) (slotName fn (i + 1))) with hd1
      have v1 : d1 (slotName fn i) = none := by
        rw [he, Function.update_of_ne (slot_ne fn (by omega)), Function.update_self]
      have v2 : d1 (slotName fn (i + 1)) = d (slotName fn i) := by rw [he, Function.update_self]
      have v3 : ∀ x, x ≠ slotName fn i → x ≠ slotName fn (i + 1) → d1 x = d x := by
        intro x h1 h2
        rw [he, Function.update_of_ne h2, Function.update_of_ne h1]
      obtain ⟨a, b, c, e, f⟩ := ih k d1 v1
      have above : ((renames fn i).take k).foldl exec d1 (slotName fn (i + 1)) = d (slotName fn i) := by
        rw [e _ fun m hm => slot_ne fn (by omega), v2]
      refine ⟨fun n hn => (a n (by omega)).trans (hl n hn), ?_, fun m => ?_, fun x hx => ?_, fun hk => ⟨(f (by omega)).1, fun m hm => ?_⟩⟩
      · rcases b with b | b
        · exact Or.inl b
        · rw [b]
          rcases Nat.eq_zero_or_pos i with rfl | hi
          · exact Or.inl v1
          · exact Or.inr (v3 _ (slot_ne fn (i := 0) (by omega)) (slot_ne fn (i := 0) (by omega)))
      · by_cases hm : m = i
        · subst hm; exact Or.inr (Or.inr above)
        · rcases c m with c | c | c
          · exact Or.inl c
          · rw [c]
            by_cases hm1 : m + 1 = i
            · rw [hm1, v1]; exact Or.inl rfl
            · exact Or.inr (Or.inl (v3 _ (slot_ne fn hm1) (slot_ne fn (by omega))))
          · by_cases hmi : m = i + 1
            · subst hmi
              refine Or.inr (Or.inl ?_)
              rw [e _ fun m hm => slot_ne fn (by omega), v3 _ (slot_ne fn (by omega)) (slot_ne fn (by omega))]
            · rw [c, v3 _ (slot_ne fn hm) (slot_ne fn hmi)]
              exact Or.inr (Or.inr rfl)
      · rw [e x fun m hm => hx m (by omega), v3 x (hx i (by omega)) (hx (i + 1) le_rfl)]
      · by_cases hmi : m = i
        · subst hmi; exact above
        · rw [(f (by omega)).2 m (by omega), v3 _ (slot_ne fn hmi) (slot_ne fn (by omega))]

/-! ## Single calls -/

lemma logged_append {fn : Text} {d : Disk} {n : ℕ} {f : File} (hf : d fn = some f) (m : Text) :
    logged fn (exec d (.write fn m)) n = logged fn d n ++ [m] := by
  induction n with
  | zero => simp [logged, exec, hf]
  | succ n ih =>
    simp only [logged, ih]
    rw [← List.append_assoc]
    congr 2
    simp only [exec]
    rw [Function.update_of_ne (slot_ne_base fn n)]

lemma logged_open {fn : Text} (d : Disk) (n : ℕ) : logged fn (exec d (.openFile fn false)) n = logged fn d n := by
  induction n with
  | zero => simp [logged, exec]
  | succ n ih =>
    simp only [logged, ih]
    congr 2
    simp only [exec]
    rw [Function.update_of_ne (slot_ne_base fn n)]

lemma logged_remove {fn : Text} (d : Disk) (n : ℕ) :
    logged fn (exec d (.remove (slotName fn (n + 1)))) (n + 1) = logged fn d n := by
  simp only [logged, exec, Function.update_self, Option.getD_none, List.nil_append]
  exact logged_congr fun m hm => Function.update_of_ne (slot_ne fn (by omega)) _ _

/-- The calls of a message from some point on: nothing, or part of the roll-over. -/
lemma roll_take {fn : Text} (hfn : '\x00' ∉ fn) (N k : ℕ) (d : Disk) :
    let d' := ((rollOver fn (N + 1) true).take k).foldl exec d
    logged fn d' (N + 1) = (if k = 0 then logged fn d (N + 1) else logged fn d N) := by
  rw [rollOver_eq fn hfn]
  cases k with
  | zero => simp
  | succ k =>
    simp only [List.take_succ_cons, List.foldl_cons, Nat.succ_ne_zero, if_false, Bool.not_true]
    rw [List.take_append, List.foldl_append]
    have hv : exec d (.remove (slotName fn (N + 1))) (slotName fn (N + 1)) = none := by simp [exec]
    obtain ⟨a, -⟩ := renames_take (N + 1) k _ hv
    have hr := (a (N + 1) le_rfl).trans (logged_remove d N)
    cases hk : k - (renames fn (N + 1)).length with
    | zero => simpa using hr
    | succ j => simpa [logged_open] using hr

/-- **C98 (an event).** An appender with backups that appends to its file: after a message, and also if the program ends at any point of writing it and
starts again, all that has been logged is still there, in order, the new message at the end; except that the oldest backup may be gone, which only
happens if the file with the new message has reached the limit. -/
theorem C98_event (fn : Text) (hfn : '\x00' ∉ fn) (N max : ℕ) (d : Disk) (f : File) (hf : d fn = some f) (m : Text) (k : ℕ) :
    (logged fn (step fn (N + 1) true (d, max) (.log m)).1 (N + 1) =
      if max ≤ chars (f ++ [m]) then logged fn d N ++ [m] else logged fn d (N + 1) ++ [m]) ∧
    (logged fn (step fn (N + 1) true (d, max) (.crash m k)).1 (N + 1) =
      if k = 0 then logged fn d (N + 1)
      else if 2 ≤ k ∧ max ≤ chars (f ++ [m]) then logged fn d N ++ [m] else logged fn d (N + 1) ++ [m]) := by
  have hs : size ((exec d (.write fn m) fn).getD []) = chars (f ++ [m]) := by simp [exec, hf, size, chars]
  have key : ∀ k, logged fn (((appendCalls fn (N + 1) max true d m).take (k + 1)).foldl exec d) (N + 1) =
      if 1 ≤ k ∧ max ≤ chars (f ++ [m]) then logged fn d N ++ [m] else logged fn d (N + 1) ++ [m] := by
    intro k
    simp only [appendCalls, hs, List.take_succ_cons, List.foldl_cons, ge_iff_le]
    by_cases hm : max ≤ chars (f ++ [m])
    · have := roll_take hfn N k (exec d (.write fn m))
      simp only [hm, if_true, and_true]
      rw [this, logged_append hf, logged_append hf]
      by_cases hk : k = 0
      · simp [hk]
      · simp [hk, Nat.one_le_iff_ne_zero]
    · simp [hm, logged_append hf]
  constructor
  · simp only [step]
    have := key ((appendCalls fn (N + 1) max true d m).length + 1)
    rw [List.take_of_length_le (by omega)] at this
    rw [this]
    simp
  · simp only [step, Bool.not_true]
    rw [logged_open]
    cases k with
    | zero => simp
    | succ k =>
      rw [key]
      simp

/-- Two files and a limit of three characters: the message that reaches the limit throws out the oldest. -/
example : logged "l".toList (step "l".toList 1 true (fun n => if n = "l".toList then some ["ab".toList] else
    if n = "l.1".toList then some ["old".toList] else none, 3) (.log "c".toList)).1 1 = ["ab".toList, "c".toList] := by decide +kernel

lemma step_base {fn : Text} (hfn : '\x00' ∉ fn) (N : ℕ) (append : Bool) (s : Disk × ℕ) (h : s.1 fn ≠ none) (e : Event) :
    (step fn N append s e).1 fn ≠ none := by
  cases e with
  | log m =>
    simp only [step, appendCalls, List.foldl_cons]
    split
    · cases N with
      | zero => simp [rollOver, exec]
      | succ N => rw [rollOver_eq fn hfn]; simp [exec]
    · simpa [exec] using h
  | crash m k => simp [step, exec]
  | resize m => exact h

lemma suffix_of_eq {α : Type*} {a b : List α} (h : a = b) : a <:+ b := h ▸ List.suffix_refl _

lemma step_suffix {fn : Text} (hfn : '\x00' ∉ fn) (N : ℕ) (s : Disk × ℕ) (h : s.1 fn ≠ none) (e : Event) :
    logged fn (step fn N true s e).1 N <:+ logged fn s.1 N ++ written [e] := by
  obtain ⟨f, hf⟩ := Option.ne_none_iff_exists'.mp h
  have hd : ∀ n, logged fn s.1 n <:+ logged fn s.1 (n + 1) := fun n => by simp only [logged]; exact List.suffix_append _ _
  cases N with
  | zero =>
    cases e with
    | log m =>
      refine suffix_of_eq ?_
      simp only [step, appendCalls, List.foldl_cons, rollOver]
      split <;> simp [written, logged, exec, hf]
    | crash m k =>
      refine suffix_of_eq ?_
      cases k with
      | zero => simp [step, written, logged, exec]
      | succ k =>
        simp only [step, appendCalls, List.take_succ_cons, List.foldl_cons, rollOver]
        split
        · cases k <;> simp [written, logged, exec, hf]
        · simp [written, logged, exec, hf]
    | resize m => simp [step, written]
  | succ N =>
    cases e with
    | log m =>
      have := (C98_event fn hfn N s.2 s.1 f hf m 0).1
      simp only [Prod.mk.eta] at this
      rw [this]
      simp only [written]
      split
      · exact List.suffix_append_self_iff.mpr (hd N)
      · exact List.suffix_refl _
    | crash m k =>
      have := (C98_event fn hfn N s.2 s.1 f hf m k).2
      simp only [Prod.mk.eta] at this
      rw [this]
      simp only [written]
      split
      · simp
      · split
        · exact List.suffix_append_self_iff.mpr (hd N)
        · exact List.suffix_refl _
    | resize m => simp [step, written]

lemma written_cons (e : Event) (es : List Event) : written (e :: es) = written [e] ++ written es := by
  cases e <;> simp [written]
  split <;> simp

lemma fold_suffix {fn : Text} (hfn : '\x00' ∉ fn) (N : ℕ) (es : List Event) (s : Disk × ℕ) (h : s.1 fn ≠ none) :
    logged fn (es.foldl (step fn N true) s).1 N <:+ logged fn s.1 N ++ written es := by
  induction es generalizing s with
  | nil => simp [written]
  | cons e es ih =>
    rw [List.foldl_cons, written_cons, ← List.append_assoc]
    exact (ih _ (step_base hfn N true s h e)).trans (List.suffix_append_self_iff.mpr (step_suffix hfn N s h e))

/-- **C98 (order).** An appender that appends to its file, whatever its limits, over any history of messages, of changes of the limit and of programs that
end at any point of writing a message and start again: what is in the file and its backups is at all times an unbroken end of all that was logged
before and since, in the order of writing. -/
theorem C98_order (fn : Text) (hfn : '\x00' ∉ fn) (N max : ℕ) (d : Disk) (events : List Event) :
    logged fn (run fn N max true d events).1 N <:+ logged fn d N ++ written events := by
  have h := fold_suffix hfn N events (exec d (.openFile fn false), max) (by simp [exec])
  simpa [run, logged_open] using h

example : logged "l".toList (run "l".toList 2 2 true (fun _ => none)
    [.log "a".toList, .log "b".toList, .crash "cd".toList 3, .log "e".toList, .resize 1, .log "f".toList]).1 2 =
    ["cd".toList, "e".toList, "f".toList] := by decide +kernel

/-! ## Where the files go -/

lemma roll_slots {fn : Text} (hfn : '\x00' ∉ fn) (N k : ℕ) (append : Bool) (d : Disk) :
    let d' := ((rollOver fn (N + 1) append).take k).foldl exec d
    (d' fn = none ∨ d' fn = d fn ∨ d' fn = some []) ∧
    (∀ m < N + 1, d' (slotName fn (m + 1)) = none ∨ d' (slotName fn (m + 1)) = d (slotName fn (m + 1)) ∨
      d' (slotName fn (m + 1)) = d (slotName fn m)) ∧
    (∀ x, (∀ m ≤ N + 1, x ≠ slotName fn m) → d' x = d x) ∧
    ((rollOver fn (N + 1) append).length ≤ k → d' fn = some [] ∧ ∀ m < N + 1, d' (slotName fn (m + 1)) = d (slotName fn m)) := by
  rw [rollOver_eq fn hfn]
  cases k with
  | zero => simp
  | succ k =>
    simp only [List.take_succ_cons, List.foldl_cons]
    rw [List.take_append, List.foldl_append]
    have hv : exec d (.remove (slotName fn (N + 1))) (slotName fn (N + 1)) = none := by simp [exec]
    have hs : ∀ m, m ≠ N + 1 → exec d (.remove (slotName fn (N + 1))) (slotName fn m) = d (slotName fn m) := fun m hm => by
      simp only [exec]; exact Function.update_of_ne (slot_ne fn hm) _ _
    have hs0 : exec d (.remove (slotName fn (N + 1))) fn = d fn := hs 0 (by omega)
    have hx0 : ∀ x, x ≠ slotName fn (N + 1) → exec d (.remove (slotName fn (N + 1))) x = d x := fun x hx => by
      simp only [exec]; exact Function.update_of_ne hx _ _
    obtain ⟨-, b, c, e, f⟩ := renames_take (N + 1) k _ hv
    have hlen : (renames fn (N + 1)).length = N + 1 := by
      have : ∀ n, (renames fn n).length = n := fun n => by induction n <;> simp [renames, *]
      exact this _
    set d1 := exec d (.remove (slotName fn (N + 1)))
    set d2 := ((renames fn (N + 1)).take k).foldl exec d1
    have c' : ∀ m < N + 1, d2 (slotName fn (m + 1)) = none ∨ d2 (slotName fn (m + 1)) = d (slotName fn (m + 1)) ∨
        d2 (slotName fn (m + 1)) = d (slotName fn m) := by
      intro m hm
      rcases c m with h | h | h
      · exact Or.inl h
      · by_cases hmN : m = N
        · subst hmN; rw [h]; exact Or.inl hv
        · rw [h]; exact Or.inr (Or.inl (hs _ (by omega)))
      · rw [h]; exact Or.inr (Or.inr (hs _ (by omega)))
    cases hk : k - (renames fn (N + 1)).length with
    | zero =>
      simp only [List.take_zero, List.foldl_nil]
      refine ⟨?_, c', fun x hx => ?_, fun h => ?_⟩
      · rcases b with b | b
        · exact Or.inl b
        · exact Or.inr (Or.inl (b.trans hs0))
      · rw [e x fun m hm => hx m (by omega), hx0 x (hx _ le_rfl)]
      · simp [hlen] at h hk; omega
    | succ j =>
      simp only [List.take_succ_cons, List.take_nil, List.foldl_cons, List.foldl_nil]
      obtain ⟨f1, f2⟩ := f (by omega)
      have hb : exec d2 (.openFile fn (!append)) fn = some [] := by
        simp [exec, f1]
      have ho : ∀ x, x ≠ fn → exec d2 (.openFile fn (!append)) x = d2 x := fun x hx => by
        simp only [exec]; exact Function.update_of_ne hx _ _
      refine ⟨Or.inr (Or.inr hb), fun m hm => ?_, fun x hx => ?_, fun _ => ⟨hb, fun m hm => ?_⟩⟩
      · rw [ho _ (slot_ne_base fn m)]; exact c' m hm
      · rw [ho _ (hx 0 (by omega)), e x fun m hm => hx m (by omega), hx0 x (hx _ le_rfl)]
      · rw [ho _ (slot_ne_base fn m), f2 m hm, hs _ (by omega)]

/-- **C98 (roll-over).** A message that does not reach the limit is added to the file and nothing else changes. One that reaches it is added, then the file
becomes the first backup and every backup the next one, the last is gone and the file is empty. -/
theorem C98_roll (fn : Text) (hfn : '\x00' ∉ fn) (N max : ℕ) (append : Bool) (d : Disk) (f : File) (hf : d fn = some f) (m : Text) :
    let d' := (step fn (N + 1) append (d, max) (.log m)).1
    (chars (f ++ [m]) < max → d' fn = some (f ++ [m]) ∧ ∀ x, x ≠ fn → d' x = d x) ∧
    (max ≤ chars (f ++ [m]) → d' fn = some [] ∧ d' (slotName fn 1) = some (f ++ [m]) ∧
      (∀ i, 1 ≤ i → i ≤ N → d' (slotName fn (i + 1)) = d (slotName fn i)) ∧
      ∀ x, (∀ i ≤ N + 1, x ≠ slotName fn i) → d' x = d x) := by
  have hs : size ((exec d (.write fn m) fn).getD []) = chars (f ++ [m]) := by simp [exec, hf, size, chars]
  have hw : exec d (.write fn m) fn = some (f ++ [m]) := by simp [exec, hf]
  have hwx : ∀ x, x ≠ fn → exec d (.write fn m) x = d x := fun x hx => by
    simp only [exec]; exact Function.update_of_ne hx _ _
  simp only [step, appendCalls, List.foldl_cons, hs, ge_iff_le]
  constructor
  · intro h
    rw [if_neg (by omega)]
    exact ⟨hw, hwx⟩
  · intro h
    rw [if_pos h]
    obtain ⟨-, -, c, e⟩ := roll_slots hfn N (rollOver fn (N + 1) append).length append (exec d (.write fn m))
    rw [List.take_length] at c e
    obtain ⟨e1, e2⟩ := e le_rfl
    refine ⟨e1, ?_, fun i hi hiN => ?_, fun x hx => ?_⟩
    · rw [e2 0 (by omega), slotName_zero, hw]
    · rw [e2 i (by omega), hwx _ (by obtain ⟨j, rfl⟩ : ∃ j, i = j + 1 := ⟨i - 1, by omega⟩; exact slot_ne_base fn j)]
    · rw [c x hx, hwx x (hx 0 (by omega))]

example : (chars [("abc" : String).toList] < 5) ∧ 5 ≤ chars [("abc" : String).toList, "de".toList] := by decide

/-- **C98 (other files).** No file but the log and its backups up to the highest number is changed, in any history. -/
theorem C98_other_files (fn : Text) (hfn : '\x00' ∉ fn) (N max : ℕ) (append : Bool) (d : Disk) (events : List Event) (x : Text)
    (hx : ∀ i ≤ N, x ≠ slotName fn i) : (run fn N max append d events).1 x = d x := by
  have hx0 : x ≠ fn := hx 0 (Nat.zero_le _)
  have ho : ∀ d : Disk, ∀ t, exec d (.openFile fn t) x = d x := fun d t => by
    simp only [exec]; exact Function.update_of_ne hx0 _ _
  have hw : ∀ d : Disk, ∀ m, exec d (.write fn m) x = d x := fun d m => by
    simp only [exec]; exact Function.update_of_ne hx0 _ _
  have hr : ∀ k d, ((rollOver fn N append).take k).foldl exec d x = d x := by
    intro k d
    cases N with
    | zero => cases k <;> simp [rollOver, ho]
    | succ N => exact (roll_slots hfn N k append d).2.2.1 x hx
  have hst : ∀ s e, (step fn N append s e).1 x = s.1 x := by
    intro s e
    cases e with
    | log m =>
      simp only [step, appendCalls, List.foldl_cons]
      split
      · have := hr (rollOver fn N append).length (exec s.1 (.write fn m))
        rw [List.take_length] at this
        rw [this, hw]
      · simp [hw]
    | crash m k =>
      simp only [step, appendCalls, ho]
      cases k with
      | zero => simp
      | succ k =>
        simp only [List.take_succ_cons, List.foldl_cons]
        split
        · rw [hr, hw]
        · simp [hw]
    | resize m => rfl
  have : ∀ (es : List Event) (s : Disk × ℕ), (es.foldl (step fn N append) s).1 x = s.1 x := by
    intro es
    induction es with
    | nil => intro s; rfl
    | cons e es ih => intro s; rw [List.foldl_cons, ih, hst]
  rw [run, this]
  exact ho _ _

example : ∀ i ≤ 2, ("l.3".toList : Text) ≠ slotName "l".toList i := by
  decide +kernel

/-! ## Sizes -/

lemma chars_append (a b : List Text) : chars (a ++ b) = chars a + chars b := by simp [chars]

/-- The sizes of the files: the file is below `b`, the backups are below `c`. -/
def Sizes (fn : Text) (N b c : ℕ) (d : Disk) : Prop :=
  chars ((d fn).getD []) < b ∧ ∀ i < N, chars ((d (slotName fn (i + 1))).getD []) < c

lemma sizes_open {fn : Text} {N b c : ℕ} {d : Disk} (h : Sizes fn N b c d) (hb : 0 < b) (t : Bool) : Sizes fn N b c (exec d (.openFile fn t)) := by
  refine ⟨?_, fun i hi => ?_⟩
  · simp only [exec, Function.update_self, Option.getD_some]
    split
    · exact hb
    · exact h.1
  · have := h.2 i hi
    simp only [exec]
    rwa [Function.update_of_ne (slot_ne_base fn i)]

lemma sizes_step {fn : Text} (hfn : '\x00' ∉ fn) (N max L c : ℕ) (hmax : 0 < max) (append : Bool) (d : Disk) (hd : d fn ≠ none)
    (h : Sizes fn (N + 1) (max + c * L) (max + (c + 1) * L) d) (e : Event) (he : Within L e) :
    (step fn (N + 1) append (d, max) e).2 = max ∧
    Sizes fn (N + 1) (max + (c + crashes [e]) * L) (max + (c + crashes [e] + 1) * L) (step fn (N + 1) append (d, max) e).1 := by
  obtain ⟨f, hf⟩ := Option.ne_none_iff_exists'.mp hd
  obtain ⟨h1, h2⟩ := h
  rw [hf, Option.getD_some] at h1
  have e1 : (c + 1) * L = c * L + L := by ring
  have e2 : (c + 1 + 1) * L = c * L + L + L := by ring
  cases e with
  | log m =>
    refine ⟨rfl, ?_⟩
    simp only [crashes, Nat.add_zero]
    have hm : chars [m] ≤ L := by simpa [chars, Within] using he
    obtain ⟨a, b⟩ := C98_roll fn hfn N max append d f hf m
    rcases Nat.lt_or_ge (chars (f ++ [m])) max with hc | hc
    · obtain ⟨a1, a2⟩ := a hc
      refine ⟨?_, fun i hi => ?_⟩
      · rw [a1, Option.getD_some]; omega
      · rw [a2 _ (slot_ne_base fn i)]; exact h2 i hi
    · obtain ⟨b1, b2, b3, -⟩ := b hc
      refine ⟨?_, fun i hi => ?_⟩
      · rw [b1]; simp only [Option.getD_some, chars, List.map_nil, List.sum_nil]; omega
      · rcases Nat.eq_zero_or_pos i with rfl | hi0
        · rw [b2, Option.getD_some, chars_append]; omega
        · rw [b3 i hi0 (by omega)]
          obtain ⟨j, rfl⟩ : ∃ j, i = j + 1 := ⟨i - 1, by omega⟩
          exact h2 j (by omega)
  | crash m k =>
    refine ⟨rfl, ?_⟩
    simp only [crashes, Nat.zero_add]
    have hm : chars [m] ≤ L := by simpa [chars, Within] using he
    simp only [step]
    refine sizes_open ?_ (by omega) _
    have hw : exec d (.write fn m) fn = some (f ++ [m]) := by simp [exec, hf]
    have hwx : ∀ i, exec d (.write fn m) (slotName fn (i + 1)) = d (slotName fn (i + 1)) := fun i => by
      simp only [exec]; exact Function.update_of_ne (slot_ne_base fn i) _ _
    have hc : chars (f ++ [m]) < max + (c + 1) * L := by rw [chars_append]; omega
    have h2' : ∀ i < N + 1, chars ((d (slotName fn (i + 1))).getD []) < max + (c + 1 + 1) * L := fun i hi => by
      have := h2 i hi; omega
    have h0 : chars [] = 0 := rfl
    cases k with
    | zero =>
      refine ⟨?_, h2'⟩
      simp only [List.take_zero, List.foldl_nil, hf, Option.getD_some]
      omega
    | succ k =>
      simp only [appendCalls, List.take_succ_cons, List.foldl_cons]
      split
      · obtain ⟨r1, r2, -, -⟩ := roll_slots hfn N k append (exec d (.write fn m))
        refine ⟨?_, fun i hi => ?_⟩
        · rcases r1 with r | r | r
          · rw [r, Option.getD_none]; omega
          · rw [r, hw, Option.getD_some]; exact hc
          · rw [r, Option.getD_some]; omega
        · rcases r2 i hi with r | r | r
          · rw [r, Option.getD_none]; omega
          · rw [r, hwx]; exact h2' i hi
          · rw [r]
            rcases Nat.eq_zero_or_pos i with rfl | hi0
            · rw [slotName_zero, hw, Option.getD_some]; omega
            · obtain ⟨j, rfl⟩ : ∃ j, i = j + 1 := ⟨i - 1, by omega⟩
              rw [hwx]
              exact h2' j (by omega)
      · simp only [List.take_nil, List.foldl_nil]
        refine ⟨?_, fun i hi => ?_⟩
        · rw [hw, Option.getD_some]; exact hc
        · rw [hwx]; exact h2' i hi
  | resize m => exact absurd he (by simp [Within])

lemma sizes_run {fn : Text} (hfn : '\x00' ∉ fn) (N max L : ℕ) (hmax : 0 < max) (append : Bool) (es : List Event) (he : ∀ e ∈ es, Within L e)
    (c : ℕ) (d : Disk) (hd : d fn ≠ none) (h : Sizes fn (N + 1) (max + c * L) (max + (c + 1) * L) d) :
    Sizes fn (N + 1) (max + (c + crashes es) * L) (max + (c + crashes es + 1) * L) (es.foldl (step fn (N + 1) append) (d, max)).1 := by
  induction es generalizing c d with
  | nil => simpa [crashes] using h
  | cons e es ih =>
    rw [List.foldl_cons]
    obtain ⟨s1, s2⟩ := sizes_step hfn N max L c hmax append d hd h e (he e (by simp))
    have hb := step_base hfn (N + 1) append (d, max) hd e
    have := ih (fun x hx => he x (by simp [hx])) _ _ hb s2
    have hcr : crashes (e :: es) = crashes [e] + crashes es := by
      cases e <;> simp [crashes, Nat.add_comm]
    rw [hcr, ← Nat.add_assoc]
    convert this using 4

/-- **C98 (sizes).** An appender with backups and a limit above 0, whose messages have at most `L` characters, and which finds no file beyond these
sizes: the file stays below the limit and every backup below the limit and one message, in any history of messages. Every end of the program in the
middle of writing a message adds at most one message. -/
theorem C98_sizes (fn : Text) (hfn : '\x00' ∉ fn) (N max L : ℕ) (hmax : 0 < max) (append : Bool) (d : Disk) (events : List Event)
    (he : ∀ e ∈ events, Within L e) (h0 : chars ((d fn).getD []) < max)
    (h1 : ∀ i, 1 ≤ i → i ≤ N + 1 → chars ((d (slotName fn i)).getD []) < max + L) :
    let d' := (run fn (N + 1) max append d events).1
    chars ((d' fn).getD []) < max + crashes events * L ∧
    ∀ i, 1 ≤ i → i ≤ N + 1 → chars ((d' (slotName fn i)).getD []) < max + (crashes events + 1) * L := by
  have hs : Sizes fn (N + 1) (max + 0 * L) (max + (0 + 1) * L) d := ⟨by simpa using h0, fun i hi => by simpa using h1 (i + 1) (by omega) (by omega)⟩
  have hs' := sizes_open hs (by omega) (!append)
  have := sizes_run hfn N max L hmax append events he 0 _ (by simp [exec]) hs'
  simp only [Nat.zero_add] at this
  refine ⟨this.1, fun i hi hiN => ?_⟩
  obtain ⟨j, rfl⟩ : ∃ j, i = j + 1 := ⟨i - 1, by omega⟩
  exact this.2 j (by omega)

example : ∀ e ∈ [Event.log "abc".toList, .crash "de".toList 1, .log "f".toList], Within 3 e := by
  simp [Within]

/-! ## What is kept -/

/-- **C98 (kept).** An appender with `N` backups that starts without files and is not interrupted: either nothing has been thrown away yet, or all backups
are there and each has at least the number of characters of the limit. -/
theorem C98_kept (fn : Text) (hfn : '\x00' ∉ fn) (N max : ℕ) (d : Disk) (hd : ∀ i ≤ N + 1, d (slotName fn i) = none) (ms : List Text) :
    let d' := (run fn (N + 1) max true d (ms.map .log)).1
    logged fn d' (N + 1) = ms ∨ ∀ i, 1 ≤ i → i ≤ N + 1 → ∃ f, d' (slotName fn i) = some f ∧ max ≤ chars f := by
  suffices H : ∀ (ms : List Text) (d : Disk) (old : List Text), d fn ≠ none →
      (∃ j ≤ N + 1, (∀ i, 1 ≤ i → i ≤ j → ∃ f, d (slotName fn i) = some f ∧ max ≤ chars f) ∧ (∀ i, j < i → i ≤ N + 1 → d (slotName fn i) = none) ∧
        (logged fn d (N + 1) = old ∨ j = N + 1)) →
      let d' := ((ms.map .log).foldl (step fn (N + 1) true) (d, max)).1
      logged fn d' (N + 1) = old ++ ms ∨ ∀ i, 1 ≤ i → i ≤ N + 1 → ∃ f, d' (slotName fn i) = some f ∧ max ≤ chars f by
    refine H ms (exec d (.openFile fn false)) [] (by simp [exec]) ⟨0, by omega, fun i h1 h2 => absurd h1 (by omega), fun i h1 h2 => ?_, Or.inl ?_⟩
    · obtain ⟨j, rfl⟩ : ∃ j, i = j + 1 := ⟨i - 1, by omega⟩
      simp only [exec]
      rw [Function.update_of_ne (slot_ne_base fn j)]
      exact hd _ h2
    · rw [logged_open]
      have : ∀ n ≤ N + 1, logged fn d n = [] := by
        intro n hn
        induction n with
        | zero => simp only [logged]; rw [show d fn = none from hd 0 hn]; rfl
        | succ n ih => simp only [logged]; rw [ih (by omega), hd _ hn]; rfl
      exact this _ le_rfl
  intro ms
  induction ms with
  | nil =>
    rintro d old - ⟨j, hj, a, -, c⟩
    simp only [List.map_nil, List.foldl_nil, List.append_nil]
    rcases c with c | rfl
    · exact Or.inl c
    · exact Or.inr a
  | cons m ms ih =>
    rintro d old hb ⟨j, hj, a, b, c⟩
    obtain ⟨f, hf⟩ := Option.ne_none_iff_exists'.mp hb
    simp only [List.map_cons, List.foldl_cons]
    have hb' := step_base hfn (N + 1) true (d, max) hb (.log m)
    rw [show old ++ m :: ms = (old ++ [m]) ++ ms by simp]
    have hst : step fn (N + 1) true (d, max) (.log m) = ((step fn (N + 1) true (d, max) (.log m)).1, max) := rfl
    rw [hst]
    refine ih _ (old ++ [m]) hb' ?_
    have hl := (C98_event fn hfn N max d f hf m 0).1
    obtain ⟨r1, r2⟩ := C98_roll fn hfn N max true d f hf m
    rcases Nat.lt_or_ge (chars (f ++ [m])) max with hc | hc
    · obtain ⟨-, r⟩ := r1 hc
      rw [if_neg (by omega)] at hl
      have hne : ∀ i, 1 ≤ i → slotName fn i ≠ fn := fun i hi => by
        obtain ⟨k, rfl⟩ : ∃ k, i = k + 1 := ⟨i - 1, by omega⟩
        exact slot_ne_base fn k
      refine ⟨j, hj, fun i h1 h2 => ?_, fun i h1 h2 => ?_, ?_⟩
      · rw [r _ (hne i h1)]; exact a i h1 h2
      · rw [r _ (hne i (by omega))]; exact b i h1 h2
      · rcases c with c | c
        · left; rw [hl, c]
        · exact Or.inr c
    · obtain ⟨-, r3, r4, -⟩ := r2 hc
      rw [if_pos hc] at hl
      refine ⟨min (j + 1) (N + 1), by omega, fun i h1 h2 => ?_, fun i h1 h2 => ?_, ?_⟩
      · rcases Nat.eq_or_lt_of_le h1 with rfl | h1'
        · exact ⟨_, r3, hc⟩
        · obtain ⟨k, rfl⟩ : ∃ k, i = k + 1 := ⟨i - 1, by omega⟩
          rw [r4 k (by omega) (by omega)]
          exact a k (by omega) (by omega)
      · obtain ⟨k, rfl⟩ : ∃ k, i = k + 1 := ⟨i - 1, by omega⟩
        rw [r4 k (by omega) (by omega)]
        exact b k (by omega) (by omega)
      · by_cases hjN : j = N + 1
        · right; omega
        · rcases c with c | c
          · left
            rw [hl, ← c]
            simp only [logged]
            rw [b (N + 1) (by omega) le_rfl]
            simp
          · exact absurd c hjN

/-- **C98 (kept characters).** So at least the last `N · limit` characters are kept, or everything. -/
theorem C98_kept_characters (fn : Text) (hfn : '\x00' ∉ fn) (N max : ℕ) (d : Disk) (hd : ∀ i ≤ N + 1, d (slotName fn i) = none) (ms : List Text) :
    let d' := (run fn (N + 1) max true d (ms.map .log)).1
    logged fn d' (N + 1) = ms ∨ (N + 1) * max ≤ chars (logged fn d' (N + 1)) := by
  rcases C98_kept fn hfn N max d hd ms with h | h
  · exact Or.inl h
  · right
    have : ∀ n ≤ N + 1, n * max ≤ chars (logged fn (run fn (N + 1) max true d (ms.map .log)).1 n) := by
      intro n hn
      induction n with
      | zero => simp
      | succ n ih =>
        obtain ⟨f, hf, hm⟩ := h (n + 1) (by omega) hn
        simp only [logged, hf, Option.getD_some, chars_append]
        have := ih (by omega)
        rw [Nat.succ_mul]
        omega
    exact this _ le_rfl

example : ∀ i ≤ 1, (fun _ => none : Disk) (slotName "l".toList i) = none := fun _ _ => rfl

/-- **C98 (kept), refuted.** With a program that ends in the middle of a roll-over, less is kept: here with the limit of one character and three backups only
two characters are left, though three have been logged. -/
theorem C98_kept_crash_refuted :
    let d' := (run "l".toList 3 1 true (fun _ => none)
      [.log "a".toList, .log "b".toList, .crash "c".toList 3, .log "".toList]).1
    logged "l".toList d' 3 = ["b".toList, "c".toList, "".toList] ∧ chars (logged "l".toList d' 3) < 3 * 1 := by decide +kernel

/-! ## No backups -/

/-- **C98 (no backups).** With 0 backups an appender that appends to its file keeps everything, in any history: the limit has no effect. -/
theorem C98_no_backups (fn : Text) (max : ℕ) (d : Disk) (events : List Event) :
    (run fn 0 max true d events).1 fn = some ((d fn).getD [] ++ written events) := by
  have hr : rollOver fn 0 true = [.openFile fn false] := rfl
  have hst : ∀ (s : Disk × ℕ) (e : Event) (f : File), s.1 fn = some f → (step fn 0 true s e).1 fn = some (f ++ written [e]) := by
    intro s e f hf
    cases e with
    | log m =>
      simp only [step, appendCalls, List.foldl_cons, hr]
      split <;> simp [written, exec, hf]
    | crash m k =>
      cases k with
      | zero => simp [step, written, exec, hf]
      | succ k =>
        simp only [step, appendCalls, List.take_succ_cons, List.foldl_cons, hr]
        split
        · cases k <;> simp [written, exec, hf]
        · simp [written, exec, hf]
    | resize m => simp [step, written, hf]
  have : ∀ (es : List Event) (s : Disk × ℕ) (f : File), s.1 fn = some f → (es.foldl (step fn 0 true) s).1 fn = some (f ++ written es) := by
    intro es
    induction es with
    | nil => intro s f hf; simpa [written] using hf
    | cons e es ih =>
      intro s f hf
      rw [List.foldl_cons, ih _ _ (hst s e f hf), written_cons e es, List.append_assoc]
  exact this events _ _ (by simp [exec])

/-- **C98 (sizes), refuted.** So with 0 backups the file grows without bound, whatever the limit. -/
theorem C98_no_backups_refuted (max bound : ℕ) :
    ∃ events : List Event, (∀ e ∈ events, Within 1 e) ∧ bound < chars (((run "l".toList 0 max true (fun _ => none) events).1 "l".toList).getD []) := by
  refine ⟨List.replicate (bound + 1) (.log "a".toList), ?_, ?_⟩
  · intro e he
    rw [List.eq_of_mem_replicate he]
    simp [Within]
  · rw [C98_no_backups]
    have : ∀ n, chars (written (List.replicate n (Event.log "a".toList))) = n := by
      intro n
      induction n with
      | zero => rfl
      | succ n ih =>
        rw [List.replicate_succ]
        simp only [written]
        rw [show ∀ (a : Text) l, a :: l = [a] ++ l from fun _ _ => rfl, chars_append, ih]
        simp [chars, Nat.add_comm]
    have := this (bound + 1)
    simp only [Option.getD_none, List.nil_append, Option.getD_some]
    omega

/-! ## Settings that break the order -/

/-- **C98 (order), refuted.** Without appending, a new start empties the file but leaves the backups: messages in the middle are gone. -/
theorem C98_truncate_refuted :
    let d' := (run "l".toList 1 2 false (fun _ => none) [.log "a".toList, .log "b".toList, .log "c".toList, .crash "".toList 0, .log "d".toList]).1
    logged "l".toList d' 1 = ["a".toList, "b".toList, "d".toList] ∧
      ¬ logged "l".toList d' 1 <:+ ["a".toList, "b".toList, "c".toList, "d".toList] := by decide +kernel

/-- **C98 (order), refuted.** A number of backups that is reduced for some time: the backups beyond it stay and are later taken for the oldest
part of the log, and what was between is gone. -/
theorem C98_fewer_backups_refuted :
    let d1 := (run "l".toList 2 1 true (fun _ => none) [.log "a".toList, .log "b".toList]).1
    let d2 := (run "l".toList 1 1 true d1 [.log "c".toList]).1
    let d3 := (run "l".toList 2 1 true d2 []).1
    logged "l".toList d3 2 = ["a".toList, "c".toList] ∧ ¬ logged "l".toList d3 2 <:+ ["a".toList, "b".toList, "c".toList] := by decide +kernel

end Ubitrack.RollingFile

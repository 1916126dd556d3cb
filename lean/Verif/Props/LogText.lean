import Verif.Spec.LogText
import Mathlib.Tactic.NormNum

/-!
# C110, C111: basic and simple layouts, formatted messages, queues of messages
-/

namespace Ubitrack.LogTextProps

open LogLayout (Event Text priorityName)
open LogText Spec.LogText

/-! ## Layouts -/

lemma split_at {x : Char} {a a' b b' : Text} (ha : x ∉ a) (ha' : x ∉ a') (h : a ++ x :: b = a' ++ x :: b') : a = a' ∧ b = b' := by
  induction a generalizing a' with
  | nil =>
    cases a' with
    | nil => simpa using h
    | cons y a' =>
      simp only [List.nil_append, List.cons_append, List.cons.injEq] at h
      exact absurd (by rw [h.1]; exact List.mem_cons_self) ha'
  | cons y a ih =>
    cases a' with
    | nil =>
      simp only [List.nil_append, List.cons_append, List.cons.injEq] at h
      exact absurd (by rw [← h.1]; exact List.mem_cons_self) ha
    | cons z a' =>
      simp only [List.cons_append, List.cons.injEq] at h
      obtain ⟨h1, h2⟩ := ih (fun hm => ha (List.mem_cons_of_mem _ hm)) (fun hm => ha' (List.mem_cons_of_mem _ hm)) h.2
      exact ⟨by rw [h.1, h1], h2⟩

lemma name_cases (p : ℤ) : priorityName p ∈ ["TRACE".toList, "DEBUG".toList, "INFO".toList, "NOTICE".toList, "WARN".toList, "ERROR".toList, "CRIT".toList,
    "ALERT".toList, "FATAL".toList, "EMERG".toList, "NOTSET".toList, "UNKNOWN".toList] := by
  unfold priorityName
  split
  · rename_i n hn
    have := List.mem_of_find?_eq_some hn
    simp only [LogLayout.names, List.mem_cons, List.not_mem_nil, or_false] at this
    rcases this with rfl | rfl | rfl | rfl | rfl | rfl | rfl | rfl | rfl | rfl | rfl <;> decide
  · decide

lemma name_plain (p : ℤ) : ' ' ∉ priorityName p ∧ '\n' ∉ priorityName p ∧ (priorityName p).length ≤ 8 := by
  have h := name_cases p
  generalize priorityName p = n at h
  revert n
  decide

lemma level_of_name {p p' : ℤ} (hp : p ∈ levels) (hp' : p' ∈ levels) (h : priorityName p = priorityName p') : p = p' := by
  have key : ∀ q ∈ levels, ∀ q' ∈ levels, priorityName q = priorityName q' → q = q' := by decide
  exact key p hp p' hp' h

/-- **C110**: from a line of the basic layout, the fields of the event can be told, if they do not contain the separators. -/
theorem C110_basic (e e' : Event) (he : Separable e) (he' : Separable e') (h : basicFormat e = basicFormat e') :
    e.seconds = e'.seconds ∧ e.categoryName = e'.categoryName ∧ e.ndc = e'.ndc ∧ e.message = e'.message ∧
      (e.priority ∈ levels → e'.priority ∈ levels → e.priority = e'.priority) := by
  unfold basicFormat at h
  simp only [List.append_assoc, List.cons_append, List.nil_append] at h
  obtain ⟨h1, h⟩ := split_at he.seconds he'.seconds h
  obtain ⟨h2, h⟩ := split_at (name_plain _).1 (name_plain _).1 h
  obtain ⟨h3, h⟩ := split_at he.category he'.category h
  obtain ⟨h4, h⟩ := split_at he.ndc he'.ndc h
  simp only [List.cons.injEq, true_and] at h
  exact ⟨h1, h3, h4, List.append_cancel_right h, fun a b => level_of_name a b h2⟩

/-- **C110**: from a line of the simple layout, priority and message can be told. -/
theorem C110_simple (e e' : Event) (h : simpleFormat e = simpleFormat e') :
    e.message = e'.message ∧ (e.priority ∈ levels → e'.priority ∈ levels → e.priority = e'.priority) := by
  unfold simpleFormat at h
  simp only [List.append_assoc] at h
  have hpad : ∀ n : Text, n.length ≤ 8 → (n ++ List.replicate (8 - n.length) ' ').length = 8 := by
    intro n hn
    simp
    omega
  obtain ⟨p1, -, p3⟩ := name_plain e.priority
  obtain ⟨q1, -, q3⟩ := name_plain e'.priority
  have l1 := hpad _ p3
  have l2 := hpad _ q3
  rw [← List.append_assoc, ← List.append_assoc (priorityName e'.priority)] at h
  obtain ⟨h1, h2⟩ := List.append_inj h (by rw [l1, l2])
  have h3 : priorityName e.priority = priorityName e'.priority := by
    have hf : ∀ n : Text, ' ' ∉ n → (n ++ List.replicate (8 - n.length) ' ').filter (· ≠ ' ') = n := by
      intro n hn
      rw [List.filter_append]
      have a1 : n.filter (· ≠ ' ') = n := by
        rw [List.filter_eq_self]
        intro c hc
        have : c ≠ ' ' := by
          rintro rfl
          exact hn hc
        simpa using this
      have a2 : (List.replicate (8 - n.length) ' ').filter (· ≠ ' ') = [] := by
        rw [List.filter_eq_nil_iff]
        intro c hc
        simp [List.eq_of_mem_replicate hc]
      rw [a1, a2, List.append_nil]
    rw [← hf _ p1, h1, hf _ q1]
  simp only [List.cons_append, List.nil_append, List.cons.injEq, true_and] at h2
  exact ⟨List.append_cancel_right h2, fun a b => level_of_name a b h3⟩

lemma written_eq (format : Event → Text) (events : List Event) : written format events = events.flatMap format := by
  unfold written
  have key : ∀ (acc : Text), events.foldl (fun stream e => stream ++ format e) acc = acc ++ events.flatMap format := by
    induction events with
    | nil => simp
    | cons e events ih =>
      intro acc
      rw [List.foldl_cons, ih, List.flatMap_cons, List.append_assoc]
  simpa using key []

/-- **C110**: a stream has one line for each event, in their order, if no field contains a line break; this holds for both layouts. -/
theorem C110_lines (format : Event → Text) (hf : format = basicFormat ∨ format = simpleFormat) (events : List Event) (ho : ∀ e ∈ events, OneLine e) :
    (written format events).splitOn '\n' = events.map (fun e => (format e).dropLast) ++ [[]] := by
  rw [written_eq]
  have hline : ∀ e, OneLine e → ∃ l, format e = l ++ ['\n'] ∧ '\n' ∉ l := by
    intro e he
    have hn := (name_plain e.priority).2.1
    rcases hf with rfl | rfl
    · refine ⟨_, rfl, ?_⟩
      simp [he.seconds, he.category, he.ndc, he.message, hn]
    · refine ⟨_, rfl, ?_⟩
      simp [he.message, hn]
  induction events with
  | nil => simp
  | cons e events ih =>
    obtain ⟨l, h1, h2⟩ := hline e (ho e (by simp))
    rw [List.flatMap_cons, h1, List.append_assoc, List.map_cons, h1, List.dropLast_concat, List.cons_append]
    unfold List.splitOn at ih ⊢
    simp only [List.cons_append, List.nil_append]
    rw [List.splitOnP_append_cons_of_forall_mem _ _ (by simp), ih fun e he => ho e (List.mem_cons_of_mem _ he)]
    intro c hc
    have : c ≠ '\n' := by
      rintro rfl
      exact h2 hc
    simpa using this

/-- **C110**, refuted: a message with a line break can look like the lines of any two events. -/
theorem C110_forged_refuted (e e' : Event) : ∃ m, basicFormat { e with message := m } = basicFormat e ++ basicFormat e' ∧
    simpleFormat { e with message := e.message ++ ['\n'] ++ (simpleFormat e').dropLast } = simpleFormat e ++ simpleFormat e' := by
  have h1 : ∃ l, basicFormat e' = l ++ ['\n'] := ⟨_, rfl⟩
  have h2 : ∃ l, simpleFormat e' = l ++ ['\n'] := ⟨_, rfl⟩
  obtain ⟨l, h1⟩ := h1
  obtain ⟨k, h2⟩ := h2
  refine ⟨e.message ++ ['\n'] ++ l, ?_, ?_⟩
  · rw [h1]
    simp [basicFormat]
  · rw [h2, List.dropLast_concat]
    simp [simpleFormat]

/-- **C110**, refuted: a category with a blank in its name cannot be told from another one with a context. -/
theorem C110_category_refuted (e : Event) (a b : Text) :
    basicFormat { e with categoryName := a ++ [' '] ++ b } = basicFormat { e with categoryName := a, ndc := b ++ [' '] ++ e.ndc } := by
  simp [basicFormat]

/-- **C110**, refuted: lines do not tell priorities between the levels from each other, whatever the documentation says about their names. -/
theorem C110_priority_refuted (e : Event) (p q : ℤ) (hp : p ∉ levels) (hq : q ∉ levels) :
    basicFormat { e with priority := p } = basicFormat { e with priority := q } := by
  have h : ∀ v : ℤ, v ∉ levels → priorityName v = "UNKNOWN".toList := by
    intro v hv
    unfold priorityName
    have : LogLayout.names.find? (fun n => decide (n.2 = v)) = none := by
      rw [List.find?_eq_none]
      intro n hn
      simp only [LogLayout.names, List.mem_cons, List.not_mem_nil, or_false] at hn
      simp only [levels, List.mem_cons, List.not_mem_nil, or_false, not_or] at hv
      rcases hn with rfl | rfl | rfl | rfl | rfl | rfl | rfl | rfl | rfl | rfl | rfl <;> simp <;> omega
    rw [this]
  unfold basicFormat
  simp only [h p hp, h q hq]

/-- An event that meets the conditions. -/
def sampleEvent : Event := ⟨"a.b".toList, "x: y".toList, "ctx".toList, 600, [], [], [], "12".toList, 0, [], [], fun _ => []⟩

example : Separable sampleEvent ∧ OneLine sampleEvent ∧ sampleEvent.priority ∈ levels ∧ basicFormat sampleEvent = "12 INFO a.b ctx: x: y\n".toList ∧
    simpleFormat sampleEvent = "INFO    : x: y\n".toList :=
  ⟨⟨by decide, by decide, by decide⟩, ⟨by decide, by decide, by decide, by decide⟩, by decide, by decide, by decide⟩

/-! ## Formatted messages -/

/-- **C111**: a formatted message of less than 1024 characters, without null characters, is logged as it is. -/
theorem C111_formatted (t : Text) (hl : t.length < 1024) (hn : Char.ofNat 0 ∉ t) (rounds : ℕ) : vform (some t) (rounds + 1) = .text t := by
  have htake : t.take 1023 = t := List.take_of_length_le (by omega)
  have hw : t.takeWhile (· ≠ Char.ofNat 0) = t := by
    have h := List.takeWhile_append_of_pos (p := fun c => decide (c ≠ Char.ofNat 0)) (l₁ := t) (l₂ := []) ?_
    · simpa using h
    intro c hc
    have : c ≠ Char.ofNat 0 := by
      rintro rfl
      exact hn hc
    simpa using this
  unfold vform vformLoop vsnprintf
  simp only [Bool.false_eq_true, if_false]
  rw [if_pos (by omega)]
  simp only [Nat.reduceSub, htake, hw]

/-- **C111**, refuted: a longer message, or one that cannot be converted, goes through the arguments twice, which is undefined behaviour. -/
theorem C111_long_refuted (t : Text) (hl : 1024 ≤ t.length) (rounds : ℕ) : vform (some t) (rounds + 2) = .ub ∧ vform none (rounds + 2) = .ub := by
  constructor
  · unfold vform vformLoop
    simp only [vsnprintf, Bool.false_eq_true, if_false]
    rw [if_neg (by omega)]
    rfl
  · rfl

/-- **C111**, refuted: the message ends at the first null character. -/
theorem C111_null_refuted (a b : Text) (ha : Char.ofNat 0 ∉ a) (hl : a.length + b.length < 1023) (rounds : ℕ) :
    vform (some (a ++ Char.ofNat 0 :: b)) (rounds + 1) = .text a := by
  have htake : (a ++ Char.ofNat 0 :: b).take 1023 = a ++ Char.ofNat 0 :: b := List.take_of_length_le (by simp; omega)
  have hw : (a ++ Char.ofNat 0 :: b).takeWhile (· ≠ Char.ofNat 0) = a := by
    rw [List.takeWhile_append_of_pos]
    · simp
    · intro c hc
      have : c ≠ Char.ofNat 0 := by
        rintro rfl
        exact ha hc
      simpa using this
  unfold vform vformLoop vsnprintf
  simp only [Bool.false_eq_true, if_false]
  rw [if_pos (by simp; omega)]
  simp only [Nat.reduceSub, htake, hw]

/-! ## Queues -/

lemma queue_spec (ops : List QueueOp) : ∀ s : QueueState, ∃ rs : List (Option Text),
    (ops.foldl queueStep s).returned = s.returned ++ rs.map (fun r => r.getD []) ∧ rs.length = asked ops ∧
      rs.filterMap id ++ (ops.foldl queueStep s).queue = s.queue ++ accepted s.threshold ops := by
  induction ops with
  | nil => exact fun s => ⟨[], by simp, rfl, by simp [accepted]⟩
  | cons o ops ih =>
    intro s
    cases o with
    | append priority text =>
      by_cases h : s.threshold = 800 ∨ priority ≤ s.threshold
      · obtain ⟨rs, h1, h2, h3⟩ := ih { s with queue := s.queue ++ [text] }
        have hd : Logging.doAppend s.threshold [] priority = true := by
          unfold Logging.doAppend Logging.NOTSET
          rw [if_pos (by omega)]
        refine ⟨rs, ?_, ?_, ?_⟩
        · simpa [queueStep, hd] using h1
        · simpa [asked] using h2
        · simpa [queueStep, hd, accepted, h] using h3
      · obtain ⟨rs, h1, h2, h3⟩ := ih s
        have hd : Logging.doAppend s.threshold [] priority = false := by
          unfold Logging.doAppend Logging.NOTSET
          rw [if_neg (by omega)]
        refine ⟨rs, ?_, ?_, ?_⟩
        · simpa [queueStep, hd] using h1
        · simpa [asked] using h2
        · simpa [queueStep, hd, accepted, h] using h3
    | threshold v =>
      obtain ⟨rs, h1, h2, h3⟩ := ih { s with threshold := v }
      exact ⟨rs, h1, by simpa [asked] using h2, h3⟩
    | pop =>
      cases hq : s.queue with
      | nil =>
        obtain ⟨rs, h1, h2, h3⟩ := ih { s with returned := s.returned ++ [[]] }
        refine ⟨none :: rs, ?_, ?_, ?_⟩
        · simpa [queueStep, hq] using h1
        · simpa [asked] using h2
        · simpa [queueStep, hq, accepted] using h3
      | cons m rest =>
        obtain ⟨rs, h1, h2, h3⟩ := ih { s with queue := rest, returned := s.returned ++ [m] }
        refine ⟨some m :: rs, ?_, ?_, ?_⟩
        · simpa [queueStep, hq] using h1
        · simpa [asked] using h2
        · simpa [queueStep, hq, accepted] using h3

/-- **C111**: each `popMessage` takes the oldest of the messages that are in the queue, or returns an empty text; so the messages taken and those that are left
are the accepted ones, in their order, each once. -/
theorem C111_queue (ops : List QueueOp) : ∃ rs : List (Option Text),
    (ops.foldl queueStep newQueue).returned = rs.map (fun r => r.getD []) ∧ rs.length = asked ops ∧
      rs.filterMap id ++ (ops.foldl queueStep newQueue).queue = accepted 800 ops := by
  obtain ⟨rs, h1, h2, h3⟩ := queue_spec ops newQueue
  exact ⟨rs, by simpa [newQueue] using h1, h2, by simpa [newQueue] using h3⟩

/-- **C111**: the next `popMessage` returns the oldest message if there is one. -/
theorem C111_pop (ops : List QueueOp) : (((ops ++ [QueueOp.pop]).foldl queueStep newQueue).returned =
      (ops.foldl queueStep newQueue).returned ++ [(ops.foldl queueStep newQueue).queue.headD []]) ∧
    ((ops ++ [QueueOp.pop]).foldl queueStep newQueue).queue = (ops.foldl queueStep newQueue).queue.tail := by
  rw [List.foldl_append]
  generalize ops.foldl queueStep newQueue = s
  simp only [List.foldl_cons, List.foldl_nil, queueStep]
  cases hq : s.queue <;> simp

/-- **C111**, refuted: an empty text returned by `popMessage` does not tell whether the queue was empty or the message. -/
theorem C111_empty_refuted (priority : ℤ) : ([QueueOp.pop].foldl queueStep newQueue).returned = [[]] ∧
    ([QueueOp.append priority [], .pop].foldl queueStep newQueue).returned = [[]] :=
  ⟨rfl, rfl⟩

example : ([QueueOp.append 600 ['a'], .threshold 300, .append 600 ['b'], .append 200 ['c'], .pop, .pop, .pop].foldl queueStep newQueue).returned =
    [['a'], ['c'], []] := by decide

end Ubitrack.LogTextProps

import Verif.Model.Syslog
import Verif.Spec.Syslog
import Verif.Props.LogConfig
import Mathlib.Data.Nat.Digits.Defs
import Mathlib.Tactic.NormNum

/-!
# C105: messages for the system log
-/

namespace Ubitrack.SyslogProps

open Syslog
open LogLayout (Text)
open Spec.Syslog

/-- **C105**: the severity of a message is that of its priority, for every priority. -/
theorem C105_severity (priority severity : ℤ) : toSyslogPriority priority = severity ↔ Severity priority severity := by
  have key : Severity priority (toSyslogPriority priority) := by
    unfold toSyslogPriority Severity
    rcases lt_or_ge (priority + 1) 0 with h | h
    · left
      have hp : (priority + 1).tdiv 100 ≤ 0 := by
        obtain ⟨n, hn⟩ : ∃ n : ℤ, priority + 1 = -n := ⟨-(priority + 1), by omega⟩
        rw [hn, Int.neg_tdiv]
        have : 0 ≤ n.tdiv 100 := Int.tdiv_nonneg (by omega) (by norm_num)
        omega
      refine ⟨by omega, ?_⟩
      dsimp only
      split_ifs <;> omega
    · rw [Int.tdiv_eq_ediv_of_nonneg h]
      dsimp only
      split_ifs <;> omega
  constructor
  · rintro rfl
    exact key
  · intro h
    unfold Severity at h key
    rcases h with h | h | h <;> rcases key with k | k | k <;> omega

/-- The severities of the named priorities. -/
example : toSyslogPriority 0 = 0 ∧ toSyslogPriority 100 = 1 ∧ toSyslogPriority 200 = 2 ∧ toSyslogPriority 300 = 3 ∧ toSyslogPriority 400 = 4 ∧
    toSyslogPriority 500 = 5 ∧ toSyslogPriority 600 = 6 ∧ toSyslogPriority 700 = 7 ∧ toSyslogPriority 750 = 7 := by decide

/-! ## Packets -/

/-- The loop cuts the message. -/
lemma sendLoop_spec (pre : Text) (hpre : pre.length < 900) : ∀ (fuel : ℕ) (rest junk : Text), rest.length ≤ fuel →
    ∃ parts : List Text, sendLoop fuel (pre ++ rest ++ junk) pre.length rest.length = some (parts.map (pre ++ ·)) ∧ parts.flatten = rest ∧
      (∀ p ∈ parts, p ≠ []) ∧ (∀ p ∈ parts, pre.length + p.length ≤ 900) ∧ ∀ p ∈ parts.dropLast, pre.length + p.length = 900 := by
  intro fuel
  induction fuel with
  | zero =>
    intro rest junk hf
    obtain rfl : rest = [] := List.eq_nil_of_length_eq_zero (by omega)
    exact ⟨[], rfl, rfl, by simp, by simp, by simp⟩
  | succ fuel ih =>
    intro rest junk hf
    unfold sendLoop
    by_cases h0 : rest.length > 0
    · rw [if_pos h0]
      by_cases h9 : pre.length + rest.length > 900
      · rw [if_pos h9]
        have hlen : (pre ++ rest ++ junk).length = pre.length + rest.length + junk.length := by simp only [List.length_append]
        dsimp only
        rw [if_neg (by rw [hlen]; omega)]
        have htake : (pre ++ rest ++ junk).take 900 = pre ++ rest.take (900 - pre.length) := by
          rw [List.append_assoc, List.take_append, List.take_of_length_le (by omega), List.take_append,
            Nat.sub_eq_zero_of_le (show 900 - pre.length ≤ rest.length by omega), List.take_zero, List.append_nil]
        have hdrop : ((pre ++ rest ++ junk).drop 900).take (rest.length - (900 - pre.length)) = rest.drop (900 - pre.length) := by
          rw [List.append_assoc, List.drop_append, List.drop_eq_nil_of_le (show pre.length ≤ 900 by omega), List.nil_append, List.drop_append,
            List.take_append]
          have hd : (rest.drop (900 - pre.length)).length = rest.length - (900 - pre.length) := List.length_drop
          rw [List.take_of_length_le (by omega), hd, Nat.sub_self, List.take_zero, List.append_nil]
        have hmove : ∃ junk', memmove (pre ++ rest ++ junk) pre.length 900 (rest.length - (900 - pre.length)) = pre ++ rest.drop (900 - pre.length) ++ junk' := by
          refine ⟨(pre ++ rest ++ junk).drop (pre.length + (rest.length - (900 - pre.length))), ?_⟩
          unfold memmove
          rw [hdrop]
          congr 2
          rw [List.append_assoc, List.take_append_of_le_length le_rfl, List.take_length]
        obtain ⟨junk', hm⟩ := hmove
        have hd : (rest.drop (900 - pre.length)).length = rest.length - (900 - pre.length) := List.length_drop
        obtain ⟨parts, h1, h2, h3, h4, h5⟩ := ih (rest.drop (900 - pre.length)) junk' (by rw [hd]; omega)
        rw [hd] at h1
        rw [hm, h1, htake]
        have htl : (rest.take (900 - pre.length)).length = 900 - pre.length := by rw [List.length_take]; omega
        have hfull : pre.length + (rest.take (900 - pre.length)).length = 900 := by rw [htl]; omega
        refine ⟨rest.take (900 - pre.length) :: parts, rfl, ?_, ?_, ?_, ?_⟩
        · rw [List.flatten_cons, h2, List.take_append_drop]
        · intro p hp
          rcases List.mem_cons.mp hp with rfl | hp
          · rw [← List.length_pos_iff, htl]
            omega
          · exact h3 p hp
        · intro p hp
          rcases List.mem_cons.mp hp with rfl | hp
          · exact hfull.le
          · exact h4 p hp
        · intro p hp
          cases parts with
          | nil => simp at hp
          | cons q qs =>
            rw [List.dropLast_cons₂] at hp
            rcases List.mem_cons.mp hp with rfl | hp
            · exact hfull
            · exact h5 p hp
      · rw [if_neg h9, if_neg (by simp only [List.length_append]; omega)]
        have htake : (pre ++ rest ++ junk).take (pre.length + rest.length) = pre ++ rest := by
          rw [← List.length_append, List.take_append_of_le_length le_rfl, List.take_length]
        refine ⟨[rest], by rw [htake]; rfl, by simp, ?_, ?_, by simp⟩
        · intro p hp
          obtain rfl : p = rest := by simpa using hp
          exact List.length_pos_iff.mp h0
        · intro p hp
          obtain rfl : p = rest := by simpa using hp
          omega
    · rw [if_neg h0]
      obtain rfl : rest = [] := List.eq_nil_of_length_eq_zero (by omega)
      exact ⟨[], rfl, rfl, by simp, by simp, by simp⟩

lemma severity_range {priority severity : ℤ} (h : Severity priority severity) : 0 ≤ severity ∧ severity ≤ 7 := by
  unfold Severity at h
  omega

/-- **C105**: a message of any length, for any facility and priority, is sent in packets, without any access outside of the buffer: each with the
facility and the severity in front, together the whole message. All go to the same socket, address and port. -/
theorem C105_packets (r : Remote) (facility severity : ℕ) (priority : ℤ) (message : Text) (fill : ℕ → Char) (hf : r.facility = 8 * facility)
    (hr : 8 * facility + 7 < 2 ^ 31) (hs : Severity priority severity) :
    ∃ packets, r.append priority message fill = some (packets.map fun p => ⟨r.socket, r.ipAddr, r.portNumber % 65536, p⟩) ∧
      Packets facility severity message packets := by
  have hsr := severity_range hs
  have hpri : r.facility + toSyslogPriority priority = ((8 * facility + severity : ℕ) : ℤ) := by
    rw [hf, (C105_severity priority severity).mpr hs]
    push_cast
    rfl
  have hpre : '<' :: decimal (r.facility + toSyslogPriority priority) ++ ['>'] = header facility severity := by
    rw [hpri]
    rfl
  have hdig : (Nat.toDigits 10 (8 * facility + severity)).length ≤ 10 := by
    refine Nat.toDigits_length 10 _ 10 (by norm_num) ?_
    norm_num at hr ⊢
    omega
  have hlen : (header facility severity).length ≤ 12 := by
    unfold header
    simp only [List.length_append, List.length_cons, List.length_nil]
    omega
  obtain ⟨parts, h1, h2, h3, h4, h5⟩ := sendLoop_spec (header facility severity) (by omega) message.length message
    ((List.range (16 - (header facility severity).length)).map fill) le_rfl
  refine ⟨parts.map (header facility severity ++ ·), ?_, parts, h2, h3, rfl, ?_, ?_⟩
  · unfold Remote.append
    simp only [hpre]
    rw [if_neg (by omega), if_neg (by omega), h1]
    simp
  · intro p hp
    obtain ⟨q, hq, rfl⟩ := List.mem_map.mp hp
    rw [List.length_append]
    exact h4 q hq
  · intro p hp
    rw [List.map_dropLast.symm] at hp
    obtain ⟨q, hq, rfl⟩ := List.mem_map.mp hp
    rw [List.length_append]
    exact h5 q hq

/-- A message of 2000 characters is sent in three packets. -/
example : ((⟨[], 8, 514, 3, (127, 0, 0, 0)⟩ : Remote).append 300 (List.replicate 2000 'x') (fun _ => '?')).map
    (fun ps => ps.map fun d => (d.content.length, d.content.take 5)) =
      some [(900, "<11>x".toList), (900, "<11>x".toList), (212, "<11>x".toList)] := by decide +kernel

/-- The settings of a new appender: the defaults for -1, else what is given. -/
theorem C105_settings (name : Text) (facility port : ℤ) (host : Option Address) (fd : ℤ) :
    (Remote.new name facility port host fd).facility = (if facility = -1 then 8 else facility) ∧
    (Remote.new name facility port host fd).portNumber = (if port = -1 then 514 else port) := by
  unfold Remote.new Remote.open
  rw [if_pos rfl]
  cases host <;> exact ⟨rfl, rfl⟩

/-- **C105**: the local system log gets the facility and the severity in one number, and the message. -/
theorem C105_local (facility severity : ℕ) (priority : ℤ) (message : Text) (hs : Severity priority severity) (h0 : '\x00' ∉ message) :
    localAppend (8 * facility) priority message = (((8 * facility + severity : ℕ) : ℤ), message) := by
  have hsr := severity_range hs
  unfold localAppend
  rw [(C105_severity priority severity).mpr hs, LogConfig.takeWhile_all h0]
  congr 1
  show Int.lor ((severity : ℕ) : ℤ) ((8 * facility : ℕ) : ℤ) = _
  have h1 : Int.lor ((severity : ℕ) : ℤ) ((8 * facility : ℕ) : ℤ) = ((severity ||| 8 * facility : ℕ) : ℤ) := rfl
  rw [h1]
  congr 1
  have h2 := Nat.shiftLeft_add_eq_or_of_lt (show severity < 2 ^ 3 by omega) facility
  rw [Nat.shiftLeft_eq, show facility * 2 ^ 3 = 8 * facility by omega] at h2
  rw [Nat.or_comm]
  exact h2.symm

/-! ## What goes wrong -/

/-- The packets go to the host only if the last three bytes of its address happen to be 0, or 255 for a first byte from 128 on. -/
theorem C105_address_refuted (name : Text) (facility port fd : ℤ) (a : Address) :
    (Remote.new name facility port (some a) fd).ipAddr = a ↔
      (a.1 < 128 ∧ a.2 = (0, 0, 0)) ∨ (128 ≤ a.1 ∧ a.2 = (255, 255, 255)) := by
  obtain ⟨a, b, c, d⟩ := a
  unfold Remote.new Remote.open storedAddress
  rw [if_pos rfl]
  simp only [Prod.mk.injEq, true_and]
  split_ifs with h <;> simp only [eq_comm, Nat.not_lt] at * <;> constructor <;> intro h' <;> omega

/-- Messages for the own machine, 127.0.0.1, are sent to 127.0.0.0. -/
example : (Remote.new [] 8 514 (some (127, 0, 0, 1)) 3).ipAddr = (127, 0, 0, 0) := by decide

/-- If the name of the host cannot be resolved, messages are written to the file descriptor 0, the standard input, as if it were a socket. -/
theorem C105_unresolved_refuted (name : Text) (facility port fd priority : ℤ) (message : Text) (fill : ℕ → Char) (ds : List Datagram)
    (h : (Remote.new name facility port none fd).append priority message fill = some ds) (d : Datagram) (hd : d ∈ ds) : d.socket = 0 := by
  unfold Remote.append at h
  dsimp only at h
  split_ifs at h
  rw [Option.map_eq_some_iff] at h
  obtain ⟨ps, -, rfl⟩ := h
  obtain ⟨p, -, rfl⟩ := List.mem_map.mp hd
  rfl

/-- The name for the system log is in no packet: two appenders with different names send the same. -/
theorem C105_name_refuted (name name' : Text) (facility port fd priority : ℤ) (host : Option Address) (message : Text) (fill : ℕ → Char) :
    (Remote.new name facility port host fd).append priority message fill = (Remote.new name' facility port host fd).append priority message fill := by
  cases host <;> rfl

/-- A property file that gives no facility for a `SyslogAppender` does not lead to the default (8, user messages), but to the facility -8; the
packets start with a negative number. -/
theorem C105_default_refuted (m : LogConfig.Props) (pre : Text) (port : ℤ) (host : Option Address) (fd priority severity : ℤ) (message : Text)
    (fill : ℕ → Char) (hne : message ≠ []) (hs : Severity priority severity) (hf : LogConfig.find m (pre ++ ".facility".toList) = none)
    (hp : LogConfig.getInt m (pre ++ ".portNumber".toList) (-1) = some port) :
    ∃ name relayer facility, LogConfig.kindOf m pre "SyslogAppender".toList = .ok (.remoteSyslog name relayer facility port) ∧
      ∃ d ds, (Remote.new name facility port host fd).append priority message fill = some (d :: ds) ∧ "<-".toList <+: d.content := by
  have hg : LogConfig.getInt m (pre ++ ".facility".toList) (-1) = some (-1) := by
    unfold LogConfig.getInt
    rw [hf]
  refine ⟨LogConfig.getString m (pre ++ ".syslogName".toList) "syslog".toList, LogConfig.getString m (pre ++ ".syslogHost".toList) "localhost".toList,
    -1 * 8, ?_, ?_⟩
  · unfold LogConfig.kindOf
    rw [if_neg (by decide), if_neg (by decide), if_neg (by decide), if_pos rfl, hg, hp]
    rfl
  · have hsr := severity_range hs
    have hfac := (C105_settings (LogConfig.getString m (pre ++ ".syslogName".toList) "syslog".toList) (-1 * 8) port host fd).1
    rw [if_neg (by norm_num)] at hfac
    obtain ⟨n, hn⟩ : ∃ n : ℕ, severity = 7 - n := ⟨(7 - severity).toNat, by omega⟩
    have hn7 : n ≤ 7 := by omega
    have hdec : (Remote.new (LogConfig.getString m (pre ++ ".syslogName".toList) "syslog".toList) (-1 * 8) port host fd).facility + toSyslogPriority priority
        = Int.negSucc n := by
      rw [hfac, (C105_severity priority severity).mpr hs, hn, Int.negSucc_eq]
      ring
    have hdig : (Nat.toDigits 10 (n + 1)).length ≤ 10 := by
      refine Nat.toDigits_length 10 _ 10 (by norm_num) ?_
      norm_num
      omega
    have hlen : ('<' :: decimal (Int.negSucc n) ++ ['>']).length ≤ 13 := by
      simp only [decimal, List.length_append, List.length_cons, List.length_nil]
      omega
    obtain ⟨parts, h1, h2, -⟩ := sendLoop_spec ('<' :: decimal (Int.negSucc n) ++ ['>']) (by omega) message.length message
      ((List.range (16 - ('<' :: decimal (Int.negSucc n) ++ ['>']).length)).map fill) le_rfl
    obtain ⟨p, ps, rfl⟩ : ∃ p ps, parts = p :: ps := by
      cases parts with
      | nil => exact absurd h2.symm hne
      | cons p ps => exact ⟨p, ps, rfl⟩
    unfold Remote.append
    simp only [hdec]
    rw [if_neg (by omega), if_neg (by omega), h1]
    refine ⟨_, _, rfl, ?_⟩
    simp only [decimal, List.cons_append]
    exact ⟨_, rfl⟩

end Ubitrack.SyslogProps

import Verif.Model.SerialPort

/-!
# C80: the serial port over every history of calls
-/

namespace Ubitrack.SerialPort

/-! ### The descriptor table -/

theorem alloc_get (f : OpenFile) (t : List (Option OpenFile)) : (alloc f t).2[(alloc f t).1]? = some (some f) := by
  induction t with
  | nil => rfl
  | cons a t ih =>
    cases a with
    | none => rfl
    | some g => simpa [alloc] using ih

theorem alloc_free (f : OpenFile) (t : List (Option OpenFile)) : (t[(alloc f t).1]?).join = none := by
  induction t with
  | nil => rfl
  | cons a t ih =>
    cases a with
    | none => rfl
    | some g => simpa [alloc] using ih

theorem alloc_other (f : OpenFile) (t : List (Option OpenFile)) (i : ℕ) (hi : i ≠ (alloc f t).1) : (alloc f t).2[i]? = t[i]? := by
  induction t generalizing i with
  | nil =>
    cases i with
    | zero => exact absurd rfl hi
    | succ i => simp [alloc]
  | cons a t ih =>
    cases a with
    | none =>
      cases i with
      | zero => exact absurd rfl hi
      | succ i => simp [alloc]
    | some g =>
      cases i with
      | zero => simp [alloc]
      | succ i =>
        simp only [alloc, List.getElem?_cons_succ]
        exact ih i (fun h => hi (by simp [alloc, h]))

/-- The descriptor given is the lowest free one. -/
theorem alloc_lowest (f : OpenFile) (t : List (Option OpenFile)) (i : ℕ) (hi : i < (alloc f t).1) : (t[i]?).join ≠ none := by
  induction t generalizing i with
  | nil => simp [alloc] at hi
  | cons a t ih =>
    cases a with
    | none => simp [alloc] at hi
    | some g =>
      cases i with
      | zero => simp
      | succ i =>
        simp only [alloc] at hi
        simpa using ih i (by omega)

/-- Number of files a process has open. -/
def openFiles (s : System) : ℕ := (s.table.filter Option.isSome).length

theorem alloc_count (f : OpenFile) (t : List (Option OpenFile)) :
    ((alloc f t).2.filter Option.isSome).length = (t.filter Option.isSome).length + 1 := by
  induction t with
  | nil => rfl
  | cons a t ih =>
    cases a with
    | none => simp [alloc]
    | some g => simp [alloc, ih]

theorem file_open (s : System) (name : String) : (s.openFile name).2.file (s.openFile name).1 = some ⟨name, s.next⟩ := by
  simp [System.file, System.openFile, alloc_get]

theorem file_open_other (s : System) (name : String) (i : ℕ) (hi : i ≠ (s.openFile name).1) : (s.openFile name).2.file i = s.file i := by
  simp only [System.file, System.openFile] at hi ⊢
  rw [alloc_other _ _ _ hi]

theorem file_open_free (s : System) (name : String) : s.file (s.openFile name).1 = none := alloc_free _ _

theorem file_close (s : System) (fd : ℕ) : (s.closeFile fd).file fd = none := by
  simp only [System.file, System.closeFile, List.getElem?_set]
  split_ifs <;> rfl

theorem file_close_other (s : System) (fd i : ℕ) (hi : i ≠ fd) : (s.closeFile fd).file i = s.file i := by
  simp only [System.file, System.closeFile, List.getElem?_set]
  rw [if_neg (Ne.symm hi)]

theorem file_setAttrs (s : System) (fd i : ℕ) (t : Termios) : (s.setAttrs fd t).file i = s.file i := by
  unfold System.setAttrs
  split <;> rfl

theorem table_setAttrs (s : System) (fd : ℕ) (t : Termios) : (s.setAttrs fd t).table = s.table := by
  unfold System.setAttrs
  split <;> rfl

/-! ### Opening -/

/-- Everything goes well. -/
def allOk : OpenAnswers := ⟨true, true, true⟩

/-- **C80** Opening a port that is not open, with a supported rate, when the operating system agrees: the port has a new descriptor that
refers to the file of its name, every other descriptor refers to what it did, and exactly the attributes of this terminal are changed:
to the rate, stop bits and timeouts asked for, raw mode. What the port was set to before is remembered. -/
theorem C80_open (p : Port) (s : System) (vtime vmin : ℤ) (hp : p.portOpen = false) (hb : p.baudRate ∈ [9600, 19200, 38400, 57600, 115200, 230400]) :
    ∃ fd p' s', p.open s vtime vmin allOk = (.ok (), p', s') ∧ p'.portOpen = true ∧ p'.fileDescriptor = some fd ∧
      s.file fd = none ∧ s'.file fd = some ⟨p.portName, s.next⟩ ∧ (∀ i, i ≠ fd → s'.file i = s.file i) ∧
      p'.original = some (s.attrs p.portName) ∧ (∀ n, n ≠ p.portName → s'.attrs n = s.attrs n) ∧
      (s'.attrs p.portName).baud = p.baudRate ∧ ((s'.attrs p.portName).cstopb = true ↔ p.stop = 2) ∧
      (s'.attrs p.portName).raw = true ∧ (s'.attrs p.portName).vtime = vtime ∧ (s'.attrs p.portName).vmin = vmin := by
  have hb' : supportedBaud p.baudRate = true := decide_eq_true hb
  have e : p.open s vtime vmin allOk = (.ok (),
      ⟨p.portName, p.baudRate, true, p.bits, p.parity, p.stop, some (s.openFile p.portName).1,
        (s.openFile p.portName).2.getAttrs (s.openFile p.portName).1⟩,
      (s.openFile p.portName).2.setAttrs (s.openFile p.portName).1 (p.attributes vtime vmin)) := by
    unfold Port.open
    simp only [hp, hb', allOk]
    rfl
  refine ⟨(s.openFile p.portName).1, _, _, e, rfl, rfl, file_open_free s p.portName, ?_, ?_, ?_, ?_, ?_, ?_, ?_, ?_, ?_⟩
  · rw [file_setAttrs, file_open]
  · intro i hi
    rw [file_setAttrs, file_open_other _ _ _ hi]
  · simp only [System.getAttrs, file_open, Option.map_some]
    rfl
  · intro n hn
    simp only [System.setAttrs, file_open]
    rw [if_neg hn]
    rfl
  all_goals simp [System.setAttrs, file_open, Port.attributes, cfmakeraw]

/-- **C80** A rate that is not supported is an error, and nothing is changed. -/
theorem C80_unsupported (p : Port) (s : System) (vtime vmin : ℤ) (a : OpenAnswers) (hp : p.portOpen = false)
    (hb : p.baudRate ∉ [9600, 19200, 38400, 57600, 115200, 230400]) : p.open s vtime vmin a = (.throws, p, s) := by
  have hb' : supportedBaud p.baudRate = false := decide_eq_false hb
  simp [Port.open, hp, hb']

/-- **C80 (attributes).** All attributes of a port that was opened, whatever the attributes were before. -/
theorem C80_attributes (p p' : Port) (s s' : System) (vtime vmin : ℤ) (a : OpenAnswers) (hp : p.portOpen = false)
    (h : p.open s vtime vmin a = (.ok (), p', s')) :
    s'.attrs p.portName =
      { baud := p.baudRate, size := 8, parenb := false, parodd := decide (p.parity = 1), cstopb := decide (p.stop = 2),
        clocal := true, cread := true, ignbrk := false, ignpar := true, raw := true, vtime := vtime, vmin := vmin } := by
  simp only [Port.open, hp, Bool.false_eq_true, if_false] at h
  split at h
  · simp at h
  split at h
  · simp at h
  split at h
  · simp at h
  split at h
  · simp at h
  simp only [Prod.mk.injEq, true_and] at h
  obtain ⟨-, rfl⟩ := h
  simp [System.setAttrs, file_open, Port.attributes, cfmakeraw]
  omega

/-- **C80 (refuted)** "The port has the number of data bits and the parity it was constructed with": whatever these were, an opened port
has eight data bits and no parity. -/
theorem C80_format_refuted (p p' : Port) (s s' : System) (vtime vmin : ℤ) (a : OpenAnswers) (hp : p.portOpen = false)
    (h : p.open s vtime vmin a = (.ok (), p', s')) : (s'.attrs p.portName).size = 8 ∧ (s'.attrs p.portName).parenb = false := by
  simp only [Port.open, hp, Bool.false_eq_true, if_false] at h
  split at h
  · simp at h
  split at h
  · simp at h
  split at h
  · simp at h
  split at h
  · simp at h
  simp only [Prod.mk.injEq, true_and] at h
  obtain ⟨-, rfl⟩ := h
  simp [System.setAttrs, file_open, Port.attributes, cfmakeraw]

/-- **C80 (refuted)** "An attempt to open the port that fails leaves nothing behind": if the attributes cannot be read or set, the file
stays open, the port counts as not open, and each new attempt opens another one. After `k` attempts `k` more files are open. -/
theorem C80_leak_refuted (p : Port) (s : System) (vtime vmin : ℤ) (hp : p.portOpen = false)
    (hb : p.baudRate ∈ [9600, 19200, 38400, 57600, 115200, 230400]) (a : OpenAnswers) (ho : a.openOk = true)
    (ha : a.getOk = false ∨ a.setOk = false) (k : ℕ) :
    let st := run (p, s) (List.replicate k (.open vtime vmin a))
    openFiles st.2 = openFiles s + k ∧ st.1.portOpen = false := by
  have hb' : supportedBaud p.baudRate = true := decide_eq_true hb
  have key : ∀ (q : Port) (s : System), q.portOpen = false → q.baudRate = p.baudRate →
      openFiles (step (q, s) (.open vtime vmin a)).2 = openFiles s + 1 ∧ (step (q, s) (.open vtime vmin a)).1.portOpen = false ∧
        (step (q, s) (.open vtime vmin a)).1.baudRate = p.baudRate := by
    intro q s hq hqb
    obtain ⟨o, g, t⟩ := a
    obtain rfl : o = true := ho
    simp only [step, Port.open, hq, hqb, hb']
    rcases ha with ha | ha
    · obtain rfl : g = false := ha
      exact ⟨alloc_count _ _, rfl, rfl⟩
    · obtain rfl : t = false := ha
      cases g
      · exact ⟨alloc_count _ _, rfl, rfl⟩
      · exact ⟨alloc_count _ _, rfl, rfl⟩
  have ind : ∀ (k : ℕ) (q : Port) (s : System), q.portOpen = false → q.baudRate = p.baudRate →
      openFiles (run (q, s) (List.replicate k (.open vtime vmin a))).2 = openFiles s + k ∧
        (run (q, s) (List.replicate k (.open vtime vmin a))).1.portOpen = false := by
    intro k
    induction k with
    | zero => intro q s hq _; exact ⟨rfl, hq⟩
    | succ k ih =>
      intro q s hq hqb
      obtain ⟨h1, h2, h3⟩ := key q s hq hqb
      obtain ⟨h4, h5⟩ := ih (step (q, s) (.open vtime vmin a)).1 (step (q, s) (.open vtime vmin a)).2 h2 h3
      refine ⟨?_, h5⟩
      change openFiles (run (step (q, s) (.open vtime vmin a)) _).2 = _
      rw [h4, h1]
      omega
  exact ind k p s hp rfl

/-! ### Closing -/

/-- **C80** Closing an open port: its descriptor refers to nothing, every other descriptor to what it did, and the attributes of the
terminal are the ones it had before it was opened. -/
theorem C80_close (p : Port) (s : System) (fd : ℕ) (f : OpenFile) (t : Termios) (hp : p.portOpen = true) (hfd : p.fileDescriptor = some fd)
    (ht : p.original = some t) (hf : s.file fd = some f) :
    (p.close s true).2.file fd = none ∧ (∀ i, i ≠ fd → (p.close s true).2.file i = s.file i) ∧
      (p.close s true).2.attrs f.name = t ∧ ∀ n, n ≠ f.name → (p.close s true).2.attrs n = s.attrs n := by
  have e : (p.close s true).2 = (s.setAttrs fd t).closeFile fd := by simp [Port.close, hp, hfd, ht]
  rw [e]
  refine ⟨file_close _ _, fun i hi => ?_, ?_, fun n hn => ?_⟩
  · rw [file_close_other _ _ _ hi, file_setAttrs]
  · simp [System.closeFile, System.setAttrs, hf]
  · simp [System.closeFile, System.setAttrs, hf, hn]

/-- Opened, then closed: the attributes of every terminal are what they were. -/
theorem C80_restores (p : Port) (s : System) (vtime vmin : ℤ) (hp : p.portOpen = false)
    (hb : p.baudRate ∈ [9600, 19200, 38400, 57600, 115200, 230400]) (i : ℕ) (n : String) :
    (run (p, s) [.open vtime vmin allOk, .close true]).2.file i = s.file i ∧
      (run (p, s) [.open vtime vmin allOk, .close true]).2.attrs n = s.attrs n := by
  obtain ⟨fd, p', s', h, h1, h2, h3, h4, h5, h6, h7, -⟩ := C80_open p s vtime vmin hp hb
  have e : run (p, s) [.open vtime vmin allOk, .close true] = p'.close s' true := by
    simp [run, step, h]
  rw [e]
  obtain ⟨c1, c2, c3, c4⟩ := C80_close p' s' fd _ _ h1 h2 h6 h4
  constructor
  · by_cases hi : i = fd
    · rw [hi, c1, h3]
    · rw [c2 i hi, h5 i hi]
  · by_cases hn : n = p.portName
    · rw [hn]; exact c3
    · rw [c4 n hn, h7 n hn]

theorem close_port (p : Port) (s : System) (b : Bool) : (p.close s b).1 = p := by
  unfold Port.close
  split
  · rfl
  · split <;> rfl

theorem step_open (st : Port × System) (e : Event) (h : st.1.portOpen = true) : (step st e).1 = st.1 := by
  cases e with
  | «open» vtime vmin a => simp [step, Port.open, h]
  | close b => exact close_port _ _ _
  | _ => rfl

/-- **C80 (refuted)** "A port that was closed is closed, and can be opened again": once opened, a port counts as open with the same
descriptor after every sequence of calls, including calls of `close`. -/
theorem C80_open_forever_refuted (p : Port) (s : System) (hp : p.portOpen = true) (es : List Event) : (run (p, s) es).1 = p := by
  unfold run
  induction es generalizing s with
  | nil => rfl
  | cons e es ih =>
    have h := step_open (p, s) e hp
    rw [List.foldl_cons]
    have : step (p, s) e = (p, (step (p, s) e).2) := Prod.ext h rfl
    rw [this]
    exact ih _

/-- **C80 (refuted)** So opening it again does nothing: no file is opened, and reading goes on with a descriptor that is not open. -/
theorem C80_reopen_refuted (p : Port) (s : System) (fd : ℕ) (hp : p.portOpen = true) (hfd : p.fileDescriptor = some fd) (b : Bool)
    (vtime vmin : ℤ) (a : OpenAnswers) (n : ℤ) (hn : 0 ≤ n) :
    let st := run (p, s) [.close b, .open vtime vmin a]
    st.2 = (p.close s b).2 ∧ st.2.file fd = none ∧ st.1.read st.2 n = .ok (n.toNat, none) := by
  have e : run (p, s) [.close b, .open vtime vmin a] = (p, (p.close s b).2) := by
    simp [run, step, Port.open, close_port, hp]
  have hf : (p.close s b).2.file fd = none := by
    simp only [Port.close, hp, hfd]
    cases p.original <;> exact file_close _ _
  rw [e]
  refine ⟨rfl, hf, ?_⟩
  simp [Port.read, hp, hfd, hf, not_lt.mpr hn]

/-- **C80 (refuted)** "Closing a port twice, or closing and then destroying it, does no harm": a file that another part of the program
opens in between gets the descriptor of the port and is closed by the second call. Whoever opened it finds its descriptor not open. -/
theorem C80_close_twice_refuted (p : Port) (s : System) (fd : ℕ) (hp : p.portOpen = true) (hfd : p.fileDescriptor = some fd) (b b' : Bool)
    (name : String) (hlow : ∀ i, i < fd → s.file i ≠ none) :
    let s1 := (p.close s b).2
    (s1.openFile name).1 = fd ∧ (s1.openFile name).2.file fd = some ⟨name, s1.next⟩ ∧
      (run (p, s) [.close b, .otherOpen name, .close b']).2.file fd = none := by
  intro s1
  have hs1 : ∀ i, i ≠ fd → s1.file i = s.file i := by
    intro i hi
    simp only [s1, Port.close, hp, hfd]
    cases p.original with
    | none => exact file_close_other _ _ _ hi
    | some t =>
      cases b
      · exact file_close_other _ _ _ hi
      · exact (file_close_other _ _ _ hi).trans (file_setAttrs _ _ _ _)
  have hs1fd : s1.file fd = none := by
    simp only [s1, Port.close, hp, hfd]
    cases p.original <;> exact file_close _ _
  have hfd' : (s1.openFile name).1 = fd := by
    rcases lt_trichotomy (s1.openFile name).1 fd with h | h | h
    · exact absurd ((hs1 _ h.ne).symm.trans (file_open_free s1 name)) (hlow _ h)
    · exact h
    · exact absurd hs1fd (alloc_lowest _ _ _ h)
  refine ⟨hfd', ?_, ?_⟩
  · have := file_open s1 name
    rwa [hfd'] at this
  · have e : run (p, s) [.close b, .otherOpen name, .close b'] = p.close (s1.openFile name).2 b' := by
      simp [run, step, close_port, s1]
    rw [e]
    simp only [Port.close, hp, hfd]
    cases p.original <;> exact file_close _ _

/-! ### Histories without `close` -/

/-- The events of a use of the port before it is closed, in a program that closes no descriptors that are not its own. -/
def Polite (st : Port × System) : Event → Prop
  | .close _ => False
  | .otherClose fd => st.1.portOpen = true → st.1.fileDescriptor ≠ some fd
  | _ => True

/-- A history of such events. -/
def PoliteRun : Port × System → List Event → Prop
  | _, [] => True
  | st, e :: es => Polite st e ∧ PoliteRun (step st e) es

/-- The port is not open, or its descriptor refers to a file of its name. -/
def Owns (st : Port × System) : Prop :=
  st.1.portOpen = true → ∃ fd id, st.1.fileDescriptor = some fd ∧ st.2.file fd = some ⟨st.1.portName, id⟩

theorem open_portName (p : Port) (s : System) (vtime vmin : ℤ) (a : OpenAnswers) : (p.open s vtime vmin a).2.1.portName = p.portName := by
  unfold Port.open
  split_ifs <;> rfl

theorem step_owns (st : Port × System) (e : Event) (h : Owns st) (he : Polite st e) : Owns (step st e) ∧ (step st e).1.portName = st.1.portName := by
  cases e with
  | «open» vtime vmin a =>
    refine ⟨?_, open_portName _ _ _ _ _⟩
    by_cases hp : st.1.portOpen = true
    · have : step st (.open vtime vmin a) = st := by simp [step, Port.open, hp]
      rw [this]; exact h
    · intro ho
      rw [Bool.not_eq_true] at hp
      simp only [step] at ho ⊢
      unfold Port.open at ho ⊢
      rw [hp] at ho ⊢
      dsimp only at ho ⊢
      split_ifs at ho ⊢ <;> first | contradiction | (exfalso; simp_all; done) | skip
      exact ⟨_, _, rfl, (file_setAttrs _ _ _ _).trans (file_open _ _)⟩
  | close b => exact absurd he id
  | read n => exact ⟨h, rfl⟩
  | send n => exact ⟨h, rfl⟩
  | otherOpen name =>
    refine ⟨fun ho => ?_, rfl⟩
    obtain ⟨fd, id, h1, h2⟩ := h ho
    refine ⟨fd, id, h1, ?_⟩
    have : fd ≠ (st.2.openFile name).1 := by
      intro h3
      have := file_open_free st.2 name
      rw [← h3, h2] at this
      cases this
    exact (file_open_other _ _ _ this).trans h2
  | otherClose fd' =>
    refine ⟨fun ho => ?_, rfl⟩
    obtain ⟨fd, id, h1, h2⟩ := h ho
    refine ⟨fd, id, h1, ?_⟩
    have hne : fd ≠ fd' := by
      rintro rfl
      exact he ho h1
    exact (file_close_other _ _ _ hne).trans h2

theorem run_owns (st : Port × System) (es : List Event) (h : Owns st) (hes : PoliteRun st es) :
    Owns (run st es) ∧ (run st es).1.portName = st.1.portName := by
  induction es generalizing st with
  | nil => exact ⟨h, rfl⟩
  | cons e es ih =>
    obtain ⟨h1, h2⟩ := step_owns st e h hes.1
    obtain ⟨h3, h4⟩ := ih (step st e) h1 hes.2
    exact ⟨h3, h4.trans h2⟩

/-- **C80 (partial)** As long as a port was not closed, and the program closes no descriptor that is not its own: whatever happened since
the port was constructed, bytes read and sent through it come from and go to a file of the name it was constructed with, and the number of
bytes that wait is the one of this file; before it was opened all three are errors. Missing: after `close`. -/
theorem C80_device_partial (name : String) (baud : ℕ) (bits parity stop : ℤ) (s : System) (es : List Event)
    (hes : PoliteRun (Port.new name baud bits parity stop, s) es) (n : ℤ) (hn : 0 ≤ n) :
    let st := run (Port.new name baud bits parity stop, s) es
    if st.1.portOpen then ∃ id, st.1.read st.2 n = .ok (n.toNat, some ⟨name, id⟩) ∧ (n < 2 ^ 63 → st.1.send st.2 n = .ok (n.toNat, some ⟨name, id⟩)) ∧
      (n < 2 ^ 31 → st.1.bytesOnRead st.2 (some n) = .ok (some n.toNat, some ⟨name, id⟩))
    else st.1.read st.2 n = .throws ∧ st.1.send st.2 n = .throws ∧ st.1.bytesOnRead st.2 (some n) = .throws := by
  intro st
  obtain ⟨h1, h2⟩ := run_owns (Port.new name baud bits parity stop, s) es (fun h => by simp [Port.new] at h) hes
  split_ifs with ho
  · obtain ⟨fd, id, h3, h4⟩ := h1 ho
    have h5 : (run (Port.new name baud bits parity stop, s) es).1.portName = name := h2
    rw [h5] at h4
    refine ⟨id, ?_, fun hn2 => ?_, fun hn2 => ?_⟩
    · simp [Port.read, st, ho, h3, h4, not_lt.mpr hn]
    · have : toUnsigned n = n.toNat := by unfold toUnsigned; omega
      simp [Port.send, st, ho, h3, h4, this]
    · have : toUnsigned n = n.toNat := by unfold toUnsigned; omega
      simp [Port.bytesOnRead, st, ho, h3, h4, this]
  · simp [Port.read, Port.send, Port.bytesOnRead, ho]

/-- **C80 (refuted)** "`bytesOnRead` reports errors": if the operating system does not answer, the value of an uninitialised variable is
returned. -/
theorem C80_bytes_refuted (p : Port) (s : System) (hp : p.portOpen = true) : ∃ f, p.bytesOnRead s none = .ok (none, f) :=
  ⟨p.fileDescriptor.bind s.file, by simp [Port.bytesOnRead, hp]⟩

/-! ### Sending -/

/-- **C80** What `send` reports when the operating system took `n` bytes: `n`. -/
theorem C80_send (p : Port) (s : System) (hp : p.portOpen = true) (n : ℕ) (hn : n < 2 ^ 63) :
    ∃ f, p.send s n = .ok (n, f) := by
  refine ⟨p.fileDescriptor.bind s.file, ?_⟩
  simp only [Port.send, hp, toUnsigned]
  have : ((n : ℤ) % 2 ^ 64).toNat = n := by omega
  simp only [this]
  rfl

/-- **C80 (reading).** An error of the operating system is reported as an exception; otherwise the number of bytes is returned. -/
theorem C80_read (p : Port) (s : System) (hp : p.portOpen = true) (n : ℤ) :
    (n < 0 → p.read s n = .throws) ∧ (0 ≤ n → ∃ f, p.read s n = .ok (n.toNat, f)) := by
  constructor
  · intro hn
    simp [Port.read, hp, hn]
  · intro hn
    exact ⟨p.fileDescriptor.bind s.file, by simp [Port.read, hp, not_lt.mpr hn]⟩

/-- **C80 (refuted)** "`send` reports how many bytes were sent": when sending fails it is no error, and the number reported is the largest
there is. -/
theorem C80_send_refuted (p : Port) (s : System) (hp : p.portOpen = true) : ∃ f, p.send s (-1) = .ok (2 ^ 64 - 1, f) := by
  refine ⟨p.fileDescriptor.bind s.file, ?_⟩
  simp only [Port.send, hp, toUnsigned]
  rfl

/-- **C80 (refuted)** `sendBreak` and `flush` of a port that was never opened use an uninitialised descriptor. -/
theorem C80_flush_refuted (name : String) (baud : ℕ) (bits parity stop : ℤ) : (Port.new name baud bits parity stop).breakOrFlush = none := rfl

/-! ### Cases -/

/-- A process with three files open, and a terminal. -/
def process : System :=
  ⟨[some ⟨"stdin", 0⟩, some ⟨"stdout", 1⟩, some ⟨"stderr", 2⟩], fun _ => ⟨300, 8, true, false, false, true, true, false, false, false, 0, 1⟩, 3⟩

/-- A port of seven bits and even parity. -/
def port : Port := Port.new "/dev/ttyS0" 9600 7 2 1

example : port.portOpen = false ∧ port.baudRate ∈ [9600, 19200, 38400, 57600, 115200, 230400] := by decide

/-- Opened it gets the next descriptor, eight bits and no parity. -/
example : (port.open process 5 0 allOk).2.1.fileDescriptor = some 3 ∧ ((port.open process 5 0 allOk).2.2.attrs "/dev/ttyS0").size = 8 ∧
    (port.open process 5 0 allOk).1 = .ok () := by decide

/-- All attributes of a port with odd parity. -/
example : ((Port.new "/dev/ttyS0" 9600 7 1 2).open process 5 0 allOk).2.2.attrs "/dev/ttyS0" =
    ⟨9600, 8, false, true, true, true, true, false, true, true, 5, 0⟩ := by decide

/-- Five attempts, five files. -/
example : openFiles (run (port, process) (List.replicate 5 (.open 5 0 ⟨true, true, false⟩))).2 = 8 := by decide

/-- Closed, a log file opened, closed again: the log file is not open. -/
example : (run (port, process) [.open 5 0 allOk, .close true, .otherOpen "log"]).2.file 3 = some ⟨"log", 4⟩ ∧
    (run (port, process) [.open 5 0 allOk, .close true, .otherOpen "log", .close true]).2.file 3 = none := by decide

/-- A polite history with other files opened and closed. -/
example : PoliteRun (Port.new "/dev/ttyS0" 9600 7 2 1, process) [.otherOpen "a", .open 5 0 allOk, .otherClose 3, .otherOpen "b", .read 4, .send 2] := by
  refine ⟨trivial, trivial, ?_, trivial, trivial, trivial, trivial⟩
  intro _
  decide

end Ubitrack.SerialPort

import Verif.Model.CalibFile

/-!
# C19: a failed calibration-file read does not change the caller's data
-/

namespace Ubitrack.Calib

variable {File Stream T : Type}

/-- **C19 (partial)** For every file system, archive and loader, at whatever point the read fails:
`readCalibFileDropMeasurement` leaves the caller's variable as it was. -/
theorem C19_drop_measurement_partial (env : Env File Stream) (ld : Loader Stream (Meas T)) (dflt : T)
    (name : String) (result : T)
    (h : (readCalibFileDropMeasurement env ld dflt name result).2 ≠ .ok) :
    (readCalibFileDropMeasurement env ld dflt name result).1 = result := by
  unfold readCalibFileDropMeasurement at h ⊢
  rcases h1 : env.fopen name with _ | f
  · rfl
  · rcases h2 : env.openArchive f with _ | s
    · simp [h2]
    · rcases h3 : ld.load s ⟨0, dflt⟩ with ⟨r, b⟩
      cases b
      · simp [h2, h3]
      · simp [h1, h2, h3] at h

/-- **C19 (partial)** `readCalibFile` leaves the caller's variable as it was if the file cannot be
opened or its archive header is not accepted, and in both cases reports it by the library's own
exception. Missing: failures after the header, see `C19_parse_failure_refuted`. -/
theorem C19_plain_partial (env : Env File Stream) (ld : Loader Stream T) (name : String) (result : T)
    (h : env.fopen name = none ∨ ∃ f, env.fopen name = some f ∧ env.openArchive f = none) :
    readCalibFile env ld name result = (result, .ubitrackException) := by
  rcases h with h | ⟨f, h, h'⟩
  · simp [readCalibFile, h]
  · simp [readCalibFile, h, h']

/-- **C19** A call returns normally exactly if the file opens, the header is accepted and the loader
runs to its end; `readCalibFile` lets no exception of the archive library escape. -/
theorem C19_plain_outcome (env : Env File Stream) (ld : Loader Stream T) (name : String) (result : T) :
    ((readCalibFile env ld name result).2 = .ok ↔
      ∃ f s, env.fopen name = some f ∧ env.openArchive f = some s ∧ (ld.load s result).2 = true) ∧
    (readCalibFile env ld name result).2 ≠ .archiveException := by
  unfold readCalibFile
  rcases h1 : env.fopen name with _ | f
  · simp
  · rcases h2 : env.openArchive f with _ | s
    · simp [h2]
    · rcases h3 : ld.load s result with ⟨r, b⟩
      cases b <;> simp [h2, h3]

/-- File system in which every name denotes a file with the given tokens. -/
def oneFile (ts : List (Option Int)) : Env (List (Option Int)) (List (Option Int)) :=
  ⟨fun _ => some ts, some⟩

/-- File system without files. -/
def noFiles : Env (List (Option Int)) (List (Option Int)) := ⟨fun _ => none, some⟩

/-- **C19 (refuted in general)** `readCalibFile` of a 3-vector from a truncated file throws, and the
caller's vector is then half old and half new. -/
theorem C19_parse_failure_refuted :
    readCalibFile (oneFile [some 7, some 8]) vectorLoader "f" [1, 2, 3] =
      ([7, 8, 3], .ubitrackException) := rfl

/-- **C19 (refuted in general)** The overload for measurements replaces the caller's measurement even
if the file does not exist: whatever it was before, afterwards it has time 0 and a default payload. -/
theorem C19_measurement_refuted (ld : Loader (List (Option Int)) (Meas T)) (dflt : T)
    (m : Meas T) (name : String) :
    readCalibFileMeasurement noFiles ld dflt name m = (⟨0, dflt⟩, .ubitrackException) := rfl

/-- **C19 (refuted in general)** With the overload for measurements, on every failure of any kind the
caller's measurement is lost: what it holds afterwards does not depend on what it held before. -/
theorem C19_measurement_forgets_refuted (env : Env File Stream) (ld : Loader Stream (Meas T)) (dflt : T)
    (m m' : Meas T) (name : String) :
    readCalibFileMeasurement env ld dflt name m = readCalibFileMeasurement env ld dflt name m' := rfl

/-- **C19 (refuted in general)** A file whose archive header is rejected makes the measurement
functions throw the archive library's exception instead of the library's own. -/
theorem C19_header_exception_refuted (env : Env File Stream) (ld : Loader Stream (Meas T)) (dflt : T)
    (m : Meas T) (name : String) (f : File) (h : env.fopen name = some f) (h' : env.openArchive f = none) :
    (readCalibFileMeasurement env ld dflt name m).2 = .archiveException ∧
    (readCalibFileDropMeasurement env ld dflt name m.value).2 = .archiveException := by
  simp [readCalibFileMeasurement, readCalibFileDropMeasurement, h, h']

theorem loadVector_save (v w : List Int) (rest : List (Option Int)) (h : w.length = v.length) :
    loadVector (saveVector v ++ rest) w = (v, true) := by
  induction v generalizing w with
  | nil =>
    have : w = [] := List.length_eq_zero_iff.mp h
    subst this
    cases rest with
    | nil => rfl
    | cons a as => rfl
  | cons z v ih =>
    cases w with
    | nil => simp at h
    | cons y w =>
      have := ih w (by simpa using h)
      simp only [saveVector, List.map_cons, List.cons_append, loadVector]
      simp only [saveVector] at this
      rw [this]

/-- **C19** Success: a vector or measurement written to a file is read back by each of the functions,
whatever the caller's variable held. -/
theorem C19_success (v w d : List Int) (t : Nat) (m : Meas (List Int)) (hw : w.length = v.length)
    (hd : d.length = v.length) (name : String) :
    readCalibFile (oneFile (saveVector v)) vectorLoader name w = (v, .ok) ∧
    readCalibFileMeasurement (oneFile (saveMeas ⟨t, v⟩)) measVectorLoader d name m = (⟨t, v⟩, .ok) ∧
    readCalibFileDropMeasurement (oneFile (saveMeas ⟨t, v⟩)) measVectorLoader d name w = (v, .ok) := by
  have h1 := loadVector_save v w [] hw
  have h2 := loadVector_save v d [] hd
  rw [List.append_nil] at h1 h2
  refine ⟨?_, ?_, ?_⟩
  · simp [readCalibFile, oneFile, vectorLoader, h1]
  · simp [readCalibFileMeasurement, oneFile, measVectorLoader, saveMeas, h2]
  · simp [readCalibFileDropMeasurement, oneFile, measVectorLoader, saveMeas, h2]

/-- Truncating the file of a vector at any point makes the read fail. -/
theorem C19_truncated_fails (v w : List Int) (n : Nat) (hw : w.length = v.length) (hn : n < v.length)
    (name : String) :
    (readCalibFile (oneFile ((saveVector v).take n)) vectorLoader name w) =
      (v.take n ++ w.drop n, .ubitrackException) := by
  have key : ∀ (v w : List Int) (n : Nat), w.length = v.length → n < v.length →
      loadVector ((saveVector v).take n) w = (v.take n ++ w.drop n, false) := by
    intro v
    induction v with
    | nil => intro w n _ hn; simp at hn
    | cons z v ih =>
      intro w n hw hn
      cases w with
      | nil => simp at hw
      | cons y w =>
        cases n with
        | zero => rfl
        | succ n =>
          have := ih w n (by simpa using hw) (by simpa using hn)
          simp only [saveVector, List.map_cons, List.take_succ_cons, loadVector]
          simp only [saveVector] at this
          rw [this]
          rfl
  simp only [readCalibFile, oneFile, vectorLoader, key v w n hw hn]

/-- A failing read exists, so the hypothesis of `C19_drop_measurement_partial` can be met. -/
example : readCalibFileDropMeasurement (oneFile [some 4, some 7, none]) measVectorLoader [0, 0] "f" [1, 2]
    = ([1, 2], .ubitrackException) := rfl
example : readCalibFileDropMeasurement (oneFile [some 4, some 7, some 8]) measVectorLoader [0, 0] "f" [1, 2]
    = ([7, 8], .ok) := rfl

end Ubitrack.Calib

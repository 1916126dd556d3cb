/-!
# Model of the reading functions of `utUtil/CalibFile.h`

The boost archive is a parameter: a header check (`openArchive`) and, for every type, a loader that
assigns the variable it is given piece by piece and can throw at any point; the loader returns the
contents of the variable when it stopped and whether it threw. The file system is a partial map
from names to contents. Logging is not modelled.
-/

namespace Ubitrack.Calib

/-- Result of a call: normal return, `Ubitrack::Util::Exception`, or an exception of the archive
library escaping. -/
inductive Outcome where
  | ok
  | ubitrackException
  | archiveException
  deriving DecidableEq

/-- What `archive >> x` does to `x`. -/
structure Loader (Stream T : Type) where
  load : Stream → T → T × Bool

/-- The environment of a call. -/
structure Env (File Stream : Type) where
  /-- `std::ifstream stream( name )`; `none`: `!good()` -/
  fopen : String → Option File
  /-- archive constructor; `none`: throws -/
  openArchive : File → Option Stream

/-- A `Measurement< T >` whose pointer is not empty. -/
structure Meas (T : Type) where
  time : Nat
  value : T
  deriving DecidableEq

variable {File Stream T : Type}

/-- src/utUtil/CalibFile.h l.58-74 (text) and l.81-99 (binary): result is the caller's variable after
the call. -/
def readCalibFile (env : Env File Stream) (ld : Loader Stream T) (name : String) (result : T) :
    T × Outcome :=
  match env.fopen name with
  | none => (result, .ubitrackException)
  | some f =>
    match env.openArchive f with
    | none => (result, .ubitrackException)
    | some s =>
      match ld.load s result with
      | (r, true) => (r, .ok)
      | (r, false) => (r, .ubitrackException)

/-- src/utUtil/CalibFile.h l.107-127: overload for measurements; `dflt` is `T()`. The archive
constructor is outside the `try`. -/
def readCalibFileMeasurement (env : Env File Stream) (ld : Loader Stream (Meas T)) (dflt : T)
    (name : String) (_result : Meas T) : Meas T × Outcome :=
  let result : Meas T := ⟨0, dflt⟩
  match env.fopen name with
  | none => (result, .ubitrackException)
  | some f =>
    match env.openArchive f with
    | none => (result, .archiveException)
    | some s =>
      match ld.load s result with
      | (r, true) => (r, .ok)
      | (r, false) => (r, .ubitrackException)

/-- src/utUtil/CalibFile.h l.137-161. -/
def readCalibFileDropMeasurement (env : Env File Stream) (ld : Loader Stream (Meas T)) (dflt : T)
    (name : String) (result : T) : T × Outcome :=
  let inter : Meas T := ⟨0, dflt⟩
  match env.fopen name with
  | none => (result, .ubitrackException)
  | some f =>
    match env.openArchive f with
    | none => (result, .archiveException)
    | some s =>
      match ld.load s inter with
      | (r, true) => (r.value, .ok)
      | (_, false) => (result, .ubitrackException)

/-- src/utMath/Vector.h l.213-219 read through boost's text archive: the elements are read one after
the other into the vector; reading stops with an exception at the first token that is missing or not
a number. Tokens are `some` number or `none`; numbers are whole numbers (the digits of a `double` are
not modelled). -/
def loadVector : List (Option Int) → List Int → List Int × Bool
  | _, [] => ([], true)
  | [], v => (v, false)
  | none :: _, v => (v, false)
  | some z :: ts, _ :: v =>
    match loadVector ts v with
    | (v', b) => (z :: v', b)

def vectorLoader : Loader (List (Option Int)) (List Int) := ⟨loadVector⟩

/-- src/utMeasurement/Measurement.h l.247-252: the timestamp, then the payload. -/
def measVectorLoader : Loader (List (Option Int)) (Meas (List Int)) :=
  ⟨fun ts m =>
    match ts with
    | some z :: ts' =>
      match loadVector ts' m.value with
      | (v, b) => (⟨z.toNat, v⟩, b)
    | _ => (m, false)⟩

/-- src/utUtil/CalibFile.h l.168-181 for a vector: one token per element. -/
def saveVector (v : List Int) : List (Option Int) := v.map some

/-- src/utUtil/CalibFile.h l.168-181 for a measurement of a vector. -/
def saveMeas (m : Meas (List Int)) : List (Option Int) := some (m.time : Int) :: saveVector m.value

end Ubitrack.Calib

import Verif.Model.GlobFiles

/-!
# Specification: finding files
-/

namespace Ubitrack.Spec

open GlobFiles

/-- The file name ends with a dot and one of the words. -/
def HasExtension (words : List String) (name : List Char) : Prop := ∃ stem, ∃ w ∈ words, name = stem ++ '.' :: w.toList

/-- What is searched in a directory: for directories, all of them; else the existing files (not directories) with an extension that belongs to the
pattern. -/
def Wanted {P : Type} (fs : FileSystem P) : FilePattern → P → Prop
  | .directories, p => fs.exists_ p ∧ fs.isDirectory p
  | .opencvImageFiles, p => fs.exists_ p ∧ ¬ fs.isDirectory p ∧ HasExtension ["jpg", "JPG", "png", "PNG", "bmp", "BMP"] (fs.filename p)
  | .ubitrackCalibrationFiles, p => fs.exists_ p ∧ ¬ fs.isDirectory p ∧ HasExtension ["cal"] (fs.filename p)
  | .ubitrackBoostBinary, p => fs.exists_ p ∧ ¬ fs.isDirectory p ∧ HasExtension ["BoostBinary"] (fs.filename p)

end Ubitrack.Spec

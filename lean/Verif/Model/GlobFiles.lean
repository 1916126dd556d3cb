import Mathlib.Order.Defs.LinearOrder

/-!
# Model: finding files

src/utUtil/GlobFiles.cpp. The file system does not change during a call. Paths are compared by any linear order.
-/

namespace Ubitrack.GlobFiles

/-- What is asked of the file system, GlobFiles.cpp l.42, l.48-56, l.63, l.78. -/
structure FileSystem (P : Type) where
  exists_ : P → Bool
  isDirectory : P → Bool
  /-- the entries of a directory, in the order in which the directory is read -/
  entries : P → List P
  filename : P → List Char

/-- One pass of the loop, l.48-67. `pattern` is `regex_match` with the given expression. -/
def visit {P : Type} (fs : FileSystem P) (pattern : List Char → Bool) (globDirectories : Bool) (files : List P) (p : P) : List P :=
  if fs.exists_ p && !fs.isDirectory p && pattern (fs.filename p) then files ++ [p]
  else if globDirectories && fs.exists_ p && fs.isDirectory p then files ++ [p]
  else files

/-- `globFiles`, l.39-88: the list `files` afterwards. `none`: an exception. -/
def globFiles {P : Type} [LinearOrder P] (fs : FileSystem P) (directory : P) (pattern : List Char → Bool) (files : List P) (globDirectories : Bool) :
    Option (List P) :=
  let result :=
    if fs.isDirectory directory && fs.exists_ directory then
      some (((fs.entries directory).foldl (visit fs pattern globDirectories) files).mergeSort (fun a b => decide (a ≤ b)))
    else if fs.exists_ directory then some (files ++ [directory])
    else none
  match result with
  | some files => if files.length = 0 then none else some files
  | none => none

/-- GlobFiles.h l.48-54. -/
inductive FilePattern where
  | opencvImageFiles
  | ubitrackCalibrationFiles
  | directories
  | ubitrackBoostBinary

/-- `regex_match` with the empty expression, GlobFiles.cpp l.92. -/
def matchEmpty (name : List Char) : Bool := name.isEmpty

/-- `regex_match` with `.*\.(a|b|...)`, l.97-101: the part after some dot is one of the words. -/
def matchExtension (words : List (List Char)) : List Char → Bool
  | [] => false
  | c :: rest => (c == '.' && words.contains rest) || matchExtension words rest

/-- `globFiles` for one of the known patterns, l.90-104. -/
def globPattern {P : Type} [LinearOrder P] (fs : FileSystem P) (directory : P) (pattern : FilePattern) (files : List P) : Option (List P) :=
  match pattern with
  | .directories => globFiles fs directory matchEmpty files true
  | .opencvImageFiles => globFiles fs directory (matchExtension (["jpg", "JPG", "png", "PNG", "bmp", "BMP"].map String.toList)) files false
  | .ubitrackCalibrationFiles => globFiles fs directory (matchExtension (["cal"].map String.toList)) files false
  | .ubitrackBoostBinary => globFiles fs directory (matchExtension (["BoostBinary"].map String.toList)) files false

end Ubitrack.GlobFiles

import Verif.Model.Basic
/-!
# Model of the path functions of utilities/fileUtils.hpp

Strings are lists of characters.
-/
namespace Rpwa.FileUtils

/-- `std::string::find_last_of(c)` for a single character; `npos` is `none`. -/
def findLastOf (c : Char) : List Char → Option Nat
  | [] => none
  | x :: xs =>
    match findLastOf c xs with
    | some i => some (i + 1)
    | none => if x = c then some 0 else none

/-- `find_last_of(c) + 1`, where `npos + 1` wraps around to 0. -/
def afterLast (c : Char) (s : List Char) : Nat :=
  match findLastOf c s with
  | some i => i + 1
  | none => 0

/-- fileUtils.hpp:59-62 `directoryFromPath`: `path.substr(0, path.find_last_of('/') + 1)`. -/
def directoryFromPath (p : List Char) : List Char := p.take (afterLast '/' p)

/-- fileUtils.hpp:67-70 `fileNameFromPath`: `path.substr(path.find_last_of('/') + 1)`. -/
def fileNameFromPath (p : List Char) : List Char := p.drop (afterLast '/' p)

/-- fileUtils.hpp:75-79 `fileNameNoExtFromPath`; `substr(0, npos)` is the whole string. -/
def fileNameNoExtFromPath (p : List Char) : List Char :=
  let f := fileNameFromPath p
  match findLastOf '.' f with
  | some i => f.take i
  | none => f

/-- fileUtils.hpp:84-88 `extensionFromPath`. -/
def extensionFromPath (p : List Char) : List Char :=
  let f := fileNameFromPath p
  f.drop (afterLast '.' f)

/-- fileUtils.hpp:93-102 `changeFileExtension`. -/
def changeFileExtension (p newExt : List Char) : List Char :=
  let directory := directoryFromPath p
  let fileNameNoExt := fileNameNoExtFromPath p
  if newExt ≠ [] then
    directory ++ fileNameNoExt ++ (if newExt.head? = some '.' then [] else ['.']) ++ newExt
  else directory ++ fileNameNoExt

end Rpwa.FileUtils

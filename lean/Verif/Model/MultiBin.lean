import Mathlib.Data.Rat.Defs
import Mathlib.Algebra.Order.Field.Rat
import Mathlib.Data.String.Basic
/-!
# Python class `multiBin` and the file manager

Models `pyInterface/module/utils/_binning.py` and parts of `pyInterface/module/_fileManager.py`. Simplifications:
* a `float` is a rational number (no NaN and infinity); the centre of a range is exact;
* a `dict` is the list of its items in the order of `sorted(keys)`; the loops over `iteritems` do not depend on the order;
* type checks of the constructor (`isinstance`) hold; a raised exception is `none`;
* text is a list of characters; `repr` of a `float` and `float(text)` are parameters. -/
namespace Rpwa.MultiBin

/-- items of `boundaries`. -/
abbrev Boundaries := List (String × (ℚ × ℚ))

/-- the keys are in strictly increasing order: the list represents a `dict`. -/
def WF (b : Boundaries) : Prop := (b.map (·.1)).Pairwise (· < ·)

/-- _binning.py:8-27: the constructor raises `ValueError` for a range with the lower above the upper bound. -/
def construct (b : Boundaries) : Option Boundaries := if b.any (fun e => e.2.1 > e.2.2) then none else some b

/-- `_binning.py:30` `sorted(boundaries.keys())`. -/
def keys (b : Boundaries) : List String := b.map (·.1)

/-- _binning.py:33-39: the loop of `__lt__` over the common keys. -/
def ltLoop : Boundaries → Boundaries → Bool
  | (_, r) :: a, (_, o) :: b =>
    let selfCenter := (r.1 + r.2) / 2
    let otherCenter := (o.1 + o.2) / 2
    if selfCenter > otherCenter then false
    else if selfCenter < otherCenter then true
    else ltLoop a b
  | _, _ => false

/-- _binning.py:29-40 `__lt__`. -/
def lt (a b : Boundaries) : Bool := if keys a ≠ keys b then false else ltLoop a b

/-- _binning.py:46-47 `__eq__`. -/
def eq (a b : Boundaries) : Bool := decide (a = b)

/-- _binning.py:50-51 `__ne__`. -/
def ne (a b : Boundaries) : Bool := !eq a b

/-- _binning.py:42-43 `__le__`. -/
def le (a b : Boundaries) : Bool := lt a b || eq a b

/-- _binning.py:54-55 `__gt__`. -/
def gt (a b : Boundaries) : Bool := !le a b

/-- _binning.py:58-59 `__ge__`. -/
def ge (a b : Boundaries) : Bool := !lt a b

/-- _binning.py:80-104 `other in self`. -/
def contains (self other : Boundaries) : Bool :=
  self.all fun e => match other.lookup e.1 with
    | some r => decide (e.2.1 ≤ r.1) && decide (e.2.2 ≥ r.2)
    | none => false

/-- _binning.py:147-160 `overlapInVariable`. -/
def overlapInVariable (strict : Bool) (r o : ℚ × ℚ) : Bool :=
  let less (left right : ℚ) : Bool := if strict then decide (left < right) else decide (left ≤ right)
  if less r.2 o.1 then false
  else if less o.2 r.1 then false
  else true

/-- _binning.py:135-145 `overlap`. -/
def overlap (a b : Boundaries) (strict : Bool) : Bool :=
  if keys a ≠ keys b then false
  else (a.zip b).all fun p => overlapInVariable strict p.1.2 p.2.2

/-- _binning.py:165-173 `inBin`. -/
def inBin (self : Boundaries) (info : List (String × ℚ)) : Bool :=
  if info.map (·.1) ≠ keys self then false
  else info.all fun e => match self.lookup e.1 with
    | some r => !(decide (e.2 < r.1) || decide (e.2 ≥ r.2))
    | none => false

variable (repr : ℚ → List Char) (parse : List Char → Option ℚ)

/-- _binning.py:112-120 `uniqueStr`. -/
def uniqueStr (b : Boundaries) : List Char :=
  List.intercalate [','] (b.map fun e => e.1.toList ++ '=' :: repr e.2.1 ++ '=' :: repr e.2.2)

/-- `dict[key] = value`. -/
def dictSet : Boundaries → String → ℚ × ℚ → Boundaries
  | [], k, v => [(k, v)]
  | (k', v') :: l, k, v => if k = k' then (k, v) :: l else if k < k' then (k, v) :: (k', v') :: l else (k', v') :: dictSet l k v

/-- _binning.py:126-132: one part of the text; parts with another number of '=' are skipped with a message, `float` may raise. -/
def parsePart (b : Boundaries) (part : List Char) : Option Boundaries :=
  match part.splitOn '=' with
  | [name, lower, upper] => do
    let lo ← parse lower
    let hi ← parse upper
    pure (dictSet b (String.ofList name) (lo, hi))
  | _ => some b

/-- _binning.py:122-133 `fromUniqueStr`. -/
def fromUniqueStr (s : List Char) : Option Boundaries := do
  let b ← (if s = [] then some [] else (s.splitOn ',').foldlM (parsePart parse) [])
  construct b

/-! ### file manager -/

/-- _fileManager.py:42-48 `InputFile`. -/
structure InputFile where
  dataFileName : String
  boundaries : Boundaries
  deriving DecidableEq

/-- _fileManager.py:262-283 `_getEventFileIdsForIntegralBin` for the event files of the given type. -/
def eventFileIds (files : List InputFile) (bin : Boundaries) : List ℕ :=
  (files.zipIdx.filter fun fi => fi.1.boundaries.all fun e => match bin.lookup e.1 with
    | some r => !(decide (e.2.2 < r.1) || decide (e.2.1 > r.2))
    | none => true).map (·.2)

/-- _fileManager.py:139-159: bins taken from the event files when the configuration has none; `none`: a range is invalid. -/
def fallbackBins (files : List InputFile) : Option (List Boundaries) :=
  files.foldlM (fun bins f => do
    let b ← construct f.boundaries
    pure (if bins.any (eq b) then bins else bins ++ [b])) []

/-- `str` of a natural number. -/
def str (n : ℕ) : List Char := (Nat.repr n).toList

/-- _fileManager.py:337-347: name of an amplitude file; `tag` is the name of the wave or the tag of the merged file. -/
def amplitudeFileName (tag : List Char) (eventsId eventsType : ℕ) : List Char :=
  tag ++ "_eventFileId-".toList ++ str eventsId ++ "_".toList ++ str eventsType ++ ".root".toList

/-- _fileManager.py:335-347: merged amplitudes `{tag: [waves]}`; `none`: no unique tag. -/
def amplitudeTag (merged : List (String × List String)) (wave : String) : Option String :=
  if wave ∉ merged.flatMap (·.2) then some wave
  else match merged.filter fun e => wave ∈ e.2 with
    | [e] => some e.1
    | _ => none

/-- `os.path.join` of a directory and a file name (posixpath.py). -/
def pathJoin (dir name : List Char) : List Char :=
  if name.head? = some '/' then name
  else if dir = [] ∨ dir.getLast? = some '/' then dir ++ name
  else dir ++ '/' :: name

/-- _fileManager.py:333-350: the path for one wave and event file. `special` are the files given explicitly, with keys (type, file, wave);
the key of the wave is its name here and its index there. `none`: an exception. -/
def amplitudeFilePath (dir : List Char) (special : List ((ℕ × ℕ × String) × List Char)) (merged : List (String × List String))
    (eventsType eventFileId : ℕ) (wave : String) : Option (List Char) :=
  match special.find? (fun e => decide (e.1 = (eventsType, eventFileId, wave))) with
  | some e => some e.2
  | none => (amplitudeTag merged wave).map fun tag => pathJoin dir (amplitudeFileName tag.toList eventFileId eventsType)

/-- _fileManager.py:226-240 `getEventAndAmplitudeFilePathsInBin`: file names in the bin with the amplitude files of all waves. -/
def filesInBin (dir : List Char) (special : List ((ℕ × ℕ × String) × List Char)) (merged : List (String × List String)) (waves : List String)
    (files : List InputFile) (eventsType : ℕ) (bin : Boundaries) : Option (List (String × List (String × List Char))) :=
  (eventFileIds files bin).mapM fun id => do
    let f ← files[id]?
    let amps ← waves.mapM fun w => do
      let p ← amplitudeFilePath dir special merged eventsType id w
      pure (w, p)
    pure (f.dataFileName, amps)

/-- _fileManager.py:356-361: name of an integral file (without the directory). -/
def integralFileName (binId eventsType : ℕ) : List Char :=
  "/integral_binID-".toList ++ str binId ++ "_".toList ++ str eventsType ++ ".root".toList

/-- _fileManager.py:257-259 `getIntegralFilePath`: `none`: `ValueError`. -/
def integralFileOf (binList : List Boundaries) (bin : Boundaries) (eventsType : ℕ) : Option (List Char) :=
  match binList.findIdx? (eq bin) with
  | some i => if eventsType = 2 ∨ eventsType = 3 then some (integralFileName i eventsType) else none
  | none => none

end Rpwa.MultiBin

import Verif.Model.Basic
import Mathlib.Data.Real.Basic
import Mathlib.Logic.Function.Basic
/-!
# Event and amplitude files

Models `storageFormats/eventFileWriter.cc`, `eventMetadata.cc`, `amplitudeFileWriter.cc`, `amplitudeMetadata.cc`, `hashCalculator.{h,cc}`.
Simplifications:
* a `double` that is stored and hashed is its 8 bytes; bounds of bins and auxiliary values are real numbers (no NaN);
* ROOT reads back what was filled; a tree is the names of its columns of additional variables and its rows; `SetBranchAddress(name)` connects
  the first branch with this name (and fails for the two branches that hold momenta, whose type differs); sub-branches of the momenta are not addressed;
* MD5 is a function from the bytes it was updated with to text;
* a `std::map` is a partial function from its keys (the loops over its entries treat every key by itself);
* messages and progress bars are omitted; memory that is never freed is not modelled. -/
namespace Rpwa.Storage

/-- the bytes of a `double`. -/
abbrev Dbl := Fin 8 → UInt8

/-- a `double` that is 0. -/
def Dbl.zero : Dbl := fun _ => 0

/-- `TVector3`. -/
structure Vec3 where
  x : Dbl
  y : Dbl
  z : Dbl

/-- `hashCalculator`: the bytes fed to `TMD5` so far. -/
abbrev Hashor := List UInt8

/-- hashCalculator.cc:14-19. -/
def updDbl (h : Hashor) (v : Dbl) : Hashor := h ++ List.ofFn v

/-- hashCalculator.cc:22-29; a complex number is its real and imaginary part. -/
def updComplex (h : Hashor) (v : Dbl × Dbl) : Hashor := updDbl (updDbl h v.1) v.2

/-- hashCalculator.cc:32-39. -/
def updVec3 (h : Hashor) (v : Vec3) : Hashor := updDbl (updDbl (updDbl h v.x) v.y) v.z

/-- hashCalculator.cc:42-47. -/
def updString (h : Hashor) (s : String) : Hashor := h ++ s.toUTF8.data.toList

/-- one entry of the event tree. -/
structure Row where
  prod : List Vec3
  decay : List Vec3
  vals : List Dbl

structure Tree where
  cols : List String
  rows : List Row

abbrev Bounds := String → Option (ℝ × ℝ)

/-- eventMetadata.h:23-28. -/
inductive EventsType where
  | other | real | generated | accepted
  deriving DecidableEq

/-- eventMetadata.h:105-125: the members. -/
structure EventMeta where
  auxString : String
  contentHash : String
  eventsType : EventsType
  prodNames : List String
  decayNames : List String
  bounds : Bounds
  addNames : List String
  auxValues : String → Option ℝ
  tree : Option Tree

/-- eventMetadata.cc:20-28: default constructor. -/
def EventMeta.default : EventMeta := ⟨"", "", .other, [], [], fun _ => none, [], fun _ => none, none⟩

/-- eventMetadata.cc:17-18. -/
def reserved : List String := ["prodKinMomenta", "decayKinMomenta"]

/-- the branch found by `SetBranchAddress` for an additional variable; `none`: negative return value. -/
def branchOf (cols : List String) (name : String) : Option ℕ :=
  if name ∈ reserved then none else cols.idxOf? name

/-- eventMetadata.cc:129-135, 249-255: connect the branches, one variable after the other; the result maps a column to the element of
`additionalVariables` it is read into. -/
def setAddresses (cols : List String) (names : List String) : Option (ℕ → Option ℕ) :=
  names.zipIdx.foldlM (fun addr ni => (branchOf cols ni.1).map fun c => Function.update addr c (some ni.2)) (fun _ => none)

/-- `GetEntry`: the connected columns are written to their elements. -/
def readRow (addr : ℕ → Option ℕ) (row : Row) (slots : List Dbl) : List Dbl :=
  (List.range row.vals.length).foldl (fun s c => match addr c with
    | some i => s.set i (row.vals.getD c Dbl.zero)
    | none => s) slots

/-- eventMetadata.cc:142-150 and l.258-266, eventFileWriter.cc:127-140: one event is hashed. -/
def updEvent (h : Hashor) (prod decay : List Vec3) (vals : List Dbl) : Hashor :=
  vals.foldl updDbl (decay.foldl updVec3 (prod.foldl updVec3 h))

/-- eventMetadata.cc:113-153 `updateHashor`. -/
def EventMeta.updateHashor (m : EventMeta) (h : Hashor) : Option Hashor := do
  let tree ← m.tree
  let addr ← setAddresses tree.cols m.addNames
  let (h, _) := tree.rows.foldl (fun (hs : Hashor × List Dbl) row =>
    let slots := readRow addr row hs.2
    (updEvent hs.1 row.prod row.decay slots, slots)) (h, List.replicate m.addNames.length Dbl.zero)
  pure h

variable (md5 : List UInt8 → String)

/-- eventMetadata.cc:156-163 `recalculateHash`. -/
def EventMeta.recalculateHash (m : EventMeta) : String :=
  match m.updateHashor [] with
  | some h => md5 h
  | none => ""

/-! ### writing events -/

/-- eventFileWriter.h:47-56: the members. -/
structure EventWriter where
  initialized : Bool
  meta_ : EventMeta
  nProd : ℕ
  nDecay : ℕ
  nAdd : ℕ
  hashor : Hashor

/-- eventFileWriter.cc:20-29. -/
def EventWriter.new : EventWriter := ⟨false, .default, 0, 0, 0, []⟩

/-- eventFileWriter.cc:158-170 `reset`. -/
def EventWriter.reset (w : EventWriter) : EventWriter := { w with hashor := [], initialized := false }

/-- arguments of `initialize`. -/
structure InitArgs where
  auxString : String
  eventsType : EventsType
  prodNames : List String
  decayNames : List String
  bounds : Bounds
  addNames : List String

/-- eventFileWriter.cc:38-81 `initialize`: result and state. -/
def EventWriter.initialize (w : EventWriter) (a : InitArgs) : Bool × EventWriter :=
  if w.initialized then (false, w)
  else (true, { w with
    initialized := true
    meta_ := { w.meta_ with
      auxString := a.auxString, eventsType := a.eventsType, prodNames := a.prodNames, decayNames := a.decayNames,
      bounds := a.bounds, addNames := a.addNames, tree := some ⟨a.addNames, []⟩ }
    nProd := a.prodNames.length
    nDecay := a.decayNames.length
    nAdd := a.addNames.length })

/-- eventFileWriter.cc:101-143 `addEvent`. -/
def EventWriter.addEvent (w : EventWriter) (prod decay : List Vec3) (vals : List Dbl) : Outcome EventWriter :=
  if !w.initialized then .ok w
  else if prod.length ≠ w.nProd then .terminate
  else if decay.length ≠ w.nDecay then .terminate
  else if vals.length ≠ w.nAdd then .terminate
  else .ok { w with
    hashor := updEvent w.hashor prod decay vals
    meta_ := { w.meta_ with tree := w.meta_.tree.map fun t => { t with rows := t.rows ++ [⟨prod, decay, vals⟩] } } }

/-- eventFileWriter.cc:146-156 `finalize`: the file that is written, and the state. -/
def EventWriter.finalize (w : EventWriter) : Option EventMeta × EventWriter :=
  if !w.initialized then (none, w)
  else
    let m := { w.meta_ with contentHash := md5 w.hashor }
    (some m, EventWriter.reset { w with meta_ := m })

/-- calls of the public interface. -/
inductive WriterOp where
  /-- `initialize`. -/
  | start (a : InitArgs)
  | addEvent (prod decay : List Vec3) (vals : List Dbl)
  | finalize
  | reset

/-- a call; the files written so far are kept in order. -/
def writerStep (s : EventWriter × List EventMeta) : WriterOp → Outcome (EventWriter × List EventMeta)
  | .start a => .ok ((s.1.initialize a).2, s.2)
  | .addEvent p d v => do
    let w ← s.1.addEvent p d v
    pure (w, s.2)
  | .finalize => .ok ((s.1.finalize md5).2, s.2 ++ (s.1.finalize md5).1.toList)
  | .reset => .ok (s.1.reset, s.2)

/-! ### merging -/

/-- eventMetadata.cc:93-103 `appendToAuxString` with the default delimiter. -/
def appendAux (a b : String) : String := if a = "" then b else a ++ ", " ++ b

/-- eventMetadata.cc:225-241: widen the merged boundaries; `none`: a variable is missing. -/
noncomputable def mergeBounds (merged other : Bounds) : Option Bounds :=
  open Classical in
  if ∃ v r, merged v = some r ∧ other v = none then none
  else some fun v => match merged v, other v with
    | some r, some o => some (if o.1 < r.1 then o.1 else r.1, if o.2 > r.2 then o.2 else r.2)
    | r, _ => r

/-- eventMetadata.cc:226-248: compare or widen the boundaries. -/
noncomputable def boundsStep (mergeBinBoundaries : Bool) (mergee merged other : Bounds) : Option Bounds :=
  open Classical in
  if !mergeBinBoundaries then (if mergee ≠ other then none else some merged)
  else mergeBounds merged other

/-- eventMetadata.cc:270-281: merge auxiliary values; `none`: different values. -/
noncomputable def mergeAux (a b : String → Option ℝ) : Option (String → Option ℝ) :=
  open Classical in
  if ∃ v x y, a v = some x ∧ b v = some y ∧ x ≠ y then none
  else some fun v => match a v with
    | some x => some x
    | none => b v

/-- state of the loop of `merge`. -/
structure MergeState where
  mergee : EventMeta
  mergedBounds : Bounds
  hashor : Hashor
  slots : List Dbl
  rows : List Row

/-- eventMetadata.cc:199-213: taken over from the first input. -/
def mergeFirst (mergeBinBoundaries : Bool) (m : EventMeta) : MergeState :=
  { mergee := { EventMeta.default with prodNames := m.prodNames, decayNames := m.decayNames, addNames := m.addNames,
                                       bounds := if mergeBinBoundaries then fun _ => none else m.bounds }
    mergedBounds := if mergeBinBoundaries then m.bounds else fun _ => none
    hashor := []
    slots := List.replicate m.addNames.length Dbl.zero
    rows := [] }

/-- eventMetadata.cc:192-282: one input. -/
noncomputable def mergeStep (mergeBinBoundaries mergeAuxString mergeAuxValues : Bool) (s : MergeState) (m : EventMeta) : Option MergeState := do
  let tree ← m.tree
  let s := if mergeAuxString then { s with mergee := { s.mergee with auxString := appendAux s.mergee.auxString m.auxString } } else s
  if s.mergee.prodNames ≠ m.prodNames then none
  else if s.mergee.decayNames ≠ m.decayNames then none
  else do
    let mb ← boundsStep mergeBinBoundaries s.mergee.bounds s.mergedBounds m.bounds
    let addr ← setAddresses tree.cols s.mergee.addNames
    let (h, slots, rows) := tree.rows.foldl (fun (x : Hashor × List Dbl × List Row) row =>
      let slots := readRow addr row x.2.1
      (updEvent x.1 row.prod row.decay slots, slots, x.2.2 ++ [⟨row.prod, row.decay, slots⟩])) (s.hashor, s.slots, s.rows)
    let aux ← (if mergeAuxValues then mergeAux s.mergee.auxValues m.auxValues else some s.mergee.auxValues)
    pure { mergee := { s.mergee with auxValues := aux }, mergedBounds := mb, hashor := h, slots := slots, rows := rows }

/-- eventMetadata.cc:172-296 `merge`; `none`: null pointer. -/
noncomputable def merge (mergeBinBoundaries mergeAuxString mergeAuxValues : Bool) : List EventMeta → Option EventMeta
  | [] => none
  | m :: ms => do
    let s ← (m :: ms).foldlM (mergeStep mergeBinBoundaries mergeAuxString mergeAuxValues) (mergeFirst mergeBinBoundaries m)
    pure { s.mergee with
      bounds := if mergeBinBoundaries then s.mergedBounds else s.mergee.bounds
      contentHash := md5 s.hashor
      tree := some ⟨s.mergee.addNames, s.rows⟩ }

/-! ### bins -/

/-- eventMetadata.cc:376-399 `inBoundaries` for the variables of an event; a bin is its list of variables and ranges in the order of the map. -/
noncomputable def inBoundaries (vars : String → Option ℝ) : List (String × (ℝ × ℝ)) → Bool
  | [] => true
  | (name, range) :: l =>
    match vars name with
    | some x => if x < range.1 ∨ x ≥ range.2 then false else inBoundaries vars l
    | none => false

/-! ### amplitude files -/

/-- amplitudeMetadata.h:68-74; the amplitudes of the tree in order. -/
structure AmpMeta where
  contentHash : String
  eventMeta : List EventMeta
  keyfileContent : String
  gitHash : String
  objectBaseName : String
  tree : Option (List (Dbl × Dbl))

/-- amplitudeMetadata.cc:31-57 `recalculateHash`. -/
def AmpMeta.recalculateHash (m : AmpMeta) : String :=
  let h := m.eventMeta.foldl (fun h e => updString h e.contentHash) []
  let h := updString h m.keyfileContent
  match m.tree with
  | none => ""
  | some amps => md5 (amps.foldl updComplex h)

/-- amplitudeFileWriter.h:42-48. -/
structure AmpWriter where
  initialized : Bool
  meta_ : AmpMeta
  hashor : Hashor

def AmpWriter.new : AmpWriter := ⟨false, ⟨"", [], "", "", "", none⟩, []⟩

/-- amplitudeFileWriter.cc:90-99. -/
def AmpWriter.reset (w : AmpWriter) : AmpWriter := { w with hashor := [], initialized := false }

/-- amplitudeFileWriter.cc:32-67 `initialize`. -/
def AmpWriter.initialize (w : AmpWriter) (eventMeta : List EventMeta) (keyfile base git : String) : Bool × AmpWriter :=
  if w.initialized then (false, w)
  else
    let h := eventMeta.foldl (fun h e => updString h e.contentHash) w.hashor
    (true, { initialized := true
             meta_ := { w.meta_ with eventMeta := eventMeta, keyfileContent := keyfile, gitHash := git, objectBaseName := base, tree := some [] }
             hashor := updString h keyfile })

/-- amplitudeFileWriter.cc:70-79 `addAmplitude`. -/
def AmpWriter.addAmplitude (w : AmpWriter) (a : Dbl × Dbl) : AmpWriter :=
  if !w.initialized then w
  else { w with hashor := updComplex w.hashor a, meta_ := { w.meta_ with tree := w.meta_.tree.map (· ++ [a]) } }

/-- amplitudeFileWriter.cc:82-87 `addAmplitudes`. -/
def AmpWriter.addAmplitudes (w : AmpWriter) (as : List (Dbl × Dbl)) : AmpWriter := as.foldl AmpWriter.addAmplitude w

/-- amplitudeFileWriter.cc:102-115 `finalize`. -/
def AmpWriter.finalize (w : AmpWriter) : Option AmpMeta × AmpWriter :=
  if !w.initialized then (none, w)
  else
    let m := { w.meta_ with contentHash := md5 w.hashor }
    (some m, AmpWriter.reset { w with meta_ := m })

inductive AmpOp where
  /-- `initialize`. -/
  | start (eventMeta : List EventMeta) (keyfile base git : String)
  | addAmplitude (a : Dbl × Dbl)
  | addAmplitudes (as : List (Dbl × Dbl))
  | finalize
  | reset

/-- a call; the objects written so far are kept in order. -/
def ampStep (s : AmpWriter × List AmpMeta) : AmpOp → AmpWriter × List AmpMeta
  | .start e k b g => ((s.1.initialize e k b g).2, s.2)
  | .addAmplitude a => (s.1.addAmplitude a, s.2)
  | .addAmplitudes as => (s.1.addAmplitudes as, s.2)
  | .finalize => ((s.1.finalize md5).2, s.2 ++ (s.1.finalize md5).1.toList)
  | .reset => (s.1.reset, s.2)

end Rpwa.Storage

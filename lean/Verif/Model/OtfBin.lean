import Verif.Model.Storage
import Mathlib.Data.Complex.Basic
import Mathlib.Algebra.BigOperators.Group.List.Basic
/-!
# On-the-fly binning of the likelihood

Models `pwaLikelihood::setOnTheFlyBinning` and the reading of decay amplitudes in `pwaLikelihood::addAmplitude`
(partialWaveFit/pwaLikelihood.cc). Simplifications:
* `val` decodes a stored `double` to a real number (no NaN);
* `_accIntAdded` is true, metadata pointers are not null;
* the normalisation of decay amplitudes and the fixing of parameters of empty waves are modelled elsewhere (C28, C29): the amplitudes here are the ones read;
* a tree entry out of range leaves the connected variable as it is (ROOT's `GetEntry`);
* every amplitude has one incoherent sub-amplitude. -/
namespace Rpwa.Otf
open Rpwa.Storage

/-- a `std::map` in the order of its keys. -/
abbrev Bin := List (String × (ℝ × ℝ))

variable (val : Dbl → ℝ)

/-- pwaLikelihood.cc:1413-1418: the value of a binning variable after `GetEntry`; the return value of `SetBranchAddress` is not checked, the
variable is initialised with 0. -/
noncomputable def binValue (t : Tree) (row : Row) (v : String) : ℝ :=
  match branchOf t.cols v with
  | some c => val (row.vals.getD c Dbl.zero)
  | none => 0

/-- pwaLikelihood.cc:1421-1432. -/
noncomputable def useEvent (value : String → ℝ) : Bin → Bool
  | [] => true
  | (v, b) :: l => if value v < b.1 ∨ value v ≥ b.2 then false else useEvent value l

/-- pwaLikelihood.cc:1419-1436: the loop over the events. -/
noncomputable def eventIndices (bin : Bin) (t : Tree) : List ℕ :=
  t.rows.zipIdx.foldl (fun is ri => if useEvent (binValue val t ri.1) bin then is ++ [ri.2] else is) []

/-- `_eventFileProperties`: hash ↦ (number of events, indices in the bin). -/
abbrev Props := List (String × (ℕ × List ℕ))

/-- `map[key] = value`. -/
def mapSet (p : Props) (k : String) (v : ℕ × List ℕ) : Props := (k, v) :: p.filter fun e => e.1 ≠ k

/-- `map[key]` creates a missing element. -/
def touch (p : Props) (k : String) : Props := if (p.lookup k).isSome then p else mapSet p k (0, [])

/-- value of `map[key]` when it exists. -/
def get (p : Props) (k : String) : ℕ × List ℕ := (p.lookup k).getD (0, [])

/-- pwaLikelihood.h:286-322: the members used here; `decayAmps` has the amplitudes of the waves that were added. -/
structure LikState where
  waves : List String
  props : Props
  order : List String
  nmbEvents : ℕ
  decayAmps : String → Option (List ℂ)

/-- pwaLikelihood.cc:1393-1440 `setOnTheFlyBinning`. -/
noncomputable def setOnTheFlyBinning (bin : Bin) : List EventMeta → LikState → Bool × LikState
  | [], s => (true, s)
  | m :: ms, s =>
    match m.tree with
    | none => (false, s)
    | some t => setOnTheFlyBinning bin ms { s with props := mapSet s.props m.contentHash (t.rows.length, eventIndices val bin t) }

/-- `amplitudeMetadata` as used here. -/
structure AmpFile where
  wave : String
  /-- content hashes of the event files. -/
  hashes : List String
  tree : List ℂ

/-- pwaLikelihood.cc:1144-1153: number of events; with on-the-fly binning the map elements are created by `operator[]`. -/
def countEvents (otf : Bool) (props : Props) (files : List AmpFile) : ℕ × Props :=
  files.foldl (fun tp f =>
    if otf then f.hashes.foldl (fun (tp : ℕ × Props) h => (tp.1 + (get (touch tp.2 h) h).2.length, touch tp.2 h)) tp
    else (tp.1 + f.tree.length, tp.2)) (0, props)

/-- pwaLikelihood.cc:1160-1187: order of the event files. -/
def checkOrder (wasEmpty otf : Bool) (props : Props) : List String → ℕ → List String → Bool × List String
  | [], _, order => (true, order)
  | h :: hs, idx, order =>
    if wasEmpty then
      if otf && (props.lookup h).isNone then (false, order ++ [h]) else checkOrder wasEmpty otf props hs idx (order ++ [h])
    else if idx ≥ order.length ∨ order[idx]? ≠ some h then (false, order)
    else if otf && (props.lookup h).isNone then (false, order)
    else checkOrder wasEmpty otf props hs (idx + 1) order

/-- `GetEntry` and appending the amplitude; `leaf` is the content of the connected object. -/
def readEntry (tree : List ℂ) (x : Option ℂ × List ℂ) (entry : ℕ) : Outcome (Option ℂ × List ℂ) :=
  let leaf := match tree[entry]? with
    | some a => some a
    | none => x.1
  match leaf with
  | some a => .ok (some a, x.2 ++ [a])
  | none => .terminate

/-- pwaLikelihood.cc:1200-1213: the selected entries of one amplitude file. -/
def readBinned (props : Props) (tree : List ℂ) : List String → ℕ → Option ℂ × List ℂ → Outcome (Option ℂ × List ℂ)
  | [], _, x => .ok x
  | h :: hs, skip, x => do
    let x ← (get props h).2.foldlM (fun x i => readEntry tree x (skip + i)) x
    readBinned props tree hs (skip + (get props h).1) x

/-- pwaLikelihood.cc:1190-1221: all amplitude files. -/
def readFiles (otf : Bool) (props : Props) : List AmpFile → List ℂ → Outcome (List ℂ)
  | [], amps => .ok amps
  | f :: fs, amps => do
    let x ← (if otf then readBinned props f.tree f.hashes 0 (none, amps)
      else (List.range f.tree.length).foldlM (readEntry f.tree) (none, amps))
    readFiles otf props fs x.2

/-- pwaLikelihood.cc:1112-1285 `addAmplitude`. -/
def addAmplitude (files : List AmpFile) (s : LikState) : Outcome (Bool × LikState) :=
  match files with
  | [] => .ok (false, s)
  | f :: _ =>
    if files.any fun g => g.wave != f.wave then .ok (false, s)
    else if f.wave ∉ s.waves then .ok (false, s)
    else
      let otf := !s.props.isEmpty
      let tp := countEvents otf s.props files
      let s := { s with props := tp.2 }
      if tp.1 = 0 then .ok (false, s)
      else
        let co := checkOrder s.order.isEmpty otf s.props (files.flatMap (·.hashes)) 0 s.order
        let s := { s with order := co.2 }
        if !co.1 then .ok (false, s)
        else do
          let amps ← readFiles otf s.props files []
          let s := if s.nmbEvents = 0 then { s with nmbEvents := tp.1 } else s
          if tp.1 ≠ s.nmbEvents then .ok (false, s)
          else .ok (true, { s with decayAmps := (fun w => if w = f.wave then some amps else s.decayAmps w) })

end Rpwa.Otf

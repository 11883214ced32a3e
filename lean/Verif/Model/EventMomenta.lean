import Mathlib.Data.List.Sort
import Mathlib.Logic.Function.Basic
import Verif.Model.Basic

/-! # Assigning event momenta to the particles of a decay topology

Models `decayAmplitude/decayTopology.cc` l.550-585 (`checkTopology`, index rule), l.656-733
(`initKinematicsData`), l.752-795 (`readKinematicsData`), l.798-808 (`fillKinematicsDataCache`) and
l.811-864 (`revertMomenta`).  The production vertex takes part only through its success flags; that a
`TClonesArray` holds objects of the wrong class is not modelled. -/

namespace Rpwa.EventMomenta

/-- A final-state particle as seen here: name and user-defined index (−1 by default). -/
structure FsPart (α : Type) where
  name : α
  index : ℤ

/-- The members of `decayTopology` used here: final-state particles, their current momenta,
`_fsDataPartIndexMap` (a `std::map<unsigned, unsigned>` as association list) and
`_fsDataPartMomCache`. -/
structure Topo (α M : Type) where
  parts : List (FsPart α)
  momenta : List M
  indexMap : List (ℕ × ℕ)
  cache : List M

section
variable {α M : Type} [DecidableEq α]

/-- `decayTopology.cc` l.556-585: the final-state index rule of `checkTopology`. -/
def checkIndices (parts : List (FsPart α)) : Bool :=
  if parts.all fun p => decide (p.index < 0) then true
  else (parts.map FsPart.name).all fun nm =>
    -- particles of this name, sorted by index, must have index 0, 1, 2, …
    decide ((((parts.filter fun p => p.name = nm).map FsPart.index).insertionSort (· ≤ ·)) =
      (List.range (parts.filter fun p => p.name = nm).length).map Int.ofNat)

/-- `decayTopology.cc` l.687-694: positions in the data array, grouped by name (`fsDataPartIndices`);
a name that does not occur has the empty list. -/
def dataIndices (names : List α) : α → List ℕ :=
  names.zipIdx.foldl (fun m e => Function.update m e.1 (m e.1 ++ [e.2])) (fun _ => [])

/-- State of the loop l.698-728: map under construction, counters `fsDataPartCount`, success flag. -/
structure LoopState (α : Type) where
  map : List (ℕ × ℕ)
  count : α → ℕ
  success : Bool

/-- One iteration of the loop l.698-728 for final-state particle `i`. -/
def loopBody (names : List α) (st : LoopState α) (e : FsPart α × ℕ) : LoopState α :=
  let part := e.1
  let i := e.2
  let entry := dataIndices names part.name
  if entry ≠ [] then
    let st1 := if part.index < 0 then
        { st with count := Function.update st.count part.name (st.count part.name + 1) } else st
    let partIndex : ℕ := if part.index < 0 then st.count part.name else part.index.toNat
    match entry[partIndex]? with
    | some k => { st1 with map := st1.map ++ [(i, k)] }
    | none => { st1 with success := false }
  else { st with success := false }

/-- `decayTopology.cc` l.656-733 `initKinematicsData`; `prodOk` is the result for the production
vertex.  On a wrong number of names (or a failing production vertex) the function returns early and
leaves the index map as it was. -/
def initKinematicsData (t : Topo α M) (prodOk : Bool) (names : List α) : Bool × Topo α M :=
  if !prodOk || decide (names.length ≠ t.parts.length) then (false, t)
  else
    let r := t.parts.zipIdx.foldl (loopBody names) ⟨[], fun _ => 0, true⟩
    (r.success && decide (r.map.length = t.parts.length), { t with indexMap := r.map })

/-- `_fsDataPartIndexMap[i]` (`operator[]` yields 0 for a missing key). -/
def lookupIdx (t : Topo α M) (i : ℕ) : ℕ := (t.indexMap.lookup i).getD 0

/-- `decayTopology.cc` l.752-795 `readKinematicsData` including `fillKinematicsDataCache`.
An index beyond the end of the momenta array (possible only with a map initialised for another
number of particles) is reported as failure for that particle. -/
def readKinematicsData (t : Topo α M) (prodOk : Bool) (moms : List M) : Bool × Topo α M :=
  if !prodOk || decide (moms.length ≠ t.parts.length) then (false, t)
  else
    let new := (List.range t.parts.length).filterMap fun i =>
      match moms[lookupIdx t i]? with
      | some m => some m
      | none => t.momenta[i]?
    let ok := (List.range t.parts.length).all fun i => (moms[lookupIdx t i]?).isSome
    (ok, { t with momenta := new, cache := new })

/-- `decayTopology.cc` l.811-834 `revertMomenta()`. -/
def revertMomenta (t : Topo α M) (prodOk : Bool) : Bool × Topo α M :=
  if t.cache.length ≠ t.parts.length then (false, t)
  else (prodOk, { t with momenta := t.cache })

/-- `decayTopology.cc` l.837-864 `revertMomenta(fsPartPermMap)`.  An entry of the map beyond the cache
would be undefined behaviour. -/
def revertMomentaPerm (t : Topo α M) (prodOk : Bool) (perm : List ℕ) : Outcome (Bool × Topo α M) :=
  if t.cache.length ≠ t.parts.length ∨ perm.length ≠ t.parts.length then .ok (false, t)
  else if perm.all fun k => decide (k < t.cache.length) then
    .ok (prodOk, { t with momenta := perm.filterMap fun k => t.cache[k]? })
  else .ub

end

end Rpwa.EventMomenta

import Mathlib.Data.List.Dedup
import Mathlib.Data.Complex.Basic
import Mathlib.Data.Real.Sqrt
import Mathlib.Data.Nat.Factorial.Basic
import Verif.Model.NextPerm

/-! # Symmetrisation of decay amplitudes

Models `decayAmplitude/isobarDecayTopology.cc` (`getBoseSymmetrization`, `genBoseSymTermMaps`,
`getFsParticleGroupsByJPI`, `getAllGroupPermutations`, `getIsospinSymmetrization`,
`isobarIsAffectedByPermutation`) and `decayAmplitude/isobarAmplitude.cc` (`amplitude`,
`initSymTermMaps`).  A final-state particle is represented by what these functions look at; particle
names are elements of a linearly ordered type (`std::string` in the code). -/

namespace Rpwa.Sym

open NextPerm

/-- `isobarDecayTopology.h` l.45-62: weight and permutation map of one symmetrisation term. -/
structure SymTerm where
  factor : ℂ
  perm : List ℕ

section bose
variable {α : Type} [LinearOrder α]

/-- The indices `i` (ascending) with `names[i] = nm`: the entry built by
`isobarDecayTopology.cc` l.661-664 (`origFsPartIndices[partName].push_back(i)`). -/
def positions (names : List α) (nm : α) : List ℕ :=
  (List.range names.length).filter fun i => names[i]? = some nm

/-- Keys of a `std::map` filled with `names`: distinct, ascending. -/
def keys (names : List α) : List α := names.dedup.insertionSort (· ≤ ·)

/-- `isobarDecayTopology.cc` l.660-664: `origFsPartIndices` in iteration order (the values of the map;
its keys are `keys names`). -/
def groups (names : List α) : List (List ℕ) := (keys names).map (positions names)

/-- `decayTopology.cc` l.194-207 `nmbIndistFsParticles`: multiplicities in iteration order. -/
def nmbIndist (names : List α) : List ℕ := (keys names).map fun nm => names.count nm

/-- `isobarDecayTopology.cc` l.787-802: the map `bosePermMap`, `n` zeros overwritten by
`bosePermMap[orig[j]] = new[j]` for all species and all `j`.  (The copy into `fsPartPermMap`
l.807-810 is the identity.) -/
def buildMap (n : ℕ) (orig new : List (List ℕ)) : List ℕ :=
  ((orig.zip new).flatMap fun g => g.1.zip g.2).foldl (fun v e => v.set e.1 e.2) (List.replicate n 0)

/-- `isobarDecayTopology.cc` l.771-825 `genBoseSymTermMaps`.  The map `newFsPartIndices` is split at
the iterator: `pre` are the species before it, `cur` the current one, `rest` the ones behind.  The
function returns the content of the map entries it changes (it permutes them in place) and the
permutation maps it appends.  `none` is reserved for non-termination of the `do … while` loop. -/
def genBoseSymTermMaps (n : ℕ) (orig pre : List (List ℕ)) (cur : List ℕ) (rest : List (List ℕ)) :
    Option (List ℕ × List (List ℕ) × List (List ℕ)) :=
  do
  let inner ← match rest with
    | [] => some (([] : List (List ℕ)), [buildMap n orig (pre ++ [cur])])
    | c :: rs => do
        let r ← genBoseSymTermMaps n orig (pre ++ [cur]) c rs
        some (r.1 :: r.2.1, r.2.2)
  if (nextPermutation cur).2 then do
    let r ← genBoseSymTermMaps n orig pre (nextPermutation cur).1 inner.1
    some (r.1, r.2.1, inner.2 ++ r.2.2)
  else some ((nextPermutation cur).1, inner.1, inner.2)
partial_fixpoint

/-- `isobarDecayTopology.cc` l.637-669 `getBoseSymmetrization`.  A topology without final-state
particles would dereference `end()` (l.666): `ub`.  Divergence of the loop would show up as
`terminate`; `bose_terms` proves that it does not happen.  The factorials are exact here
(`factorial<double>`, see `Model/Factorial`). -/
noncomputable def getBoseSymmetrization (names : List α) : Outcome (List SymTerm) :=
  match groups names with
  | [] => .ub
  | first :: rest =>
    match genBoseSymTermMaps names.length (groups names) [] first rest with
    | none => .terminate
    | some r =>
      let nmbCombinations : ℝ := (nmbIndist names).foldl (fun x k => x * (k.factorial : ℝ)) 1
      let normFactor : ℝ := 1 / Real.sqrt nmbCombinations
      .ok (r.2.2.map fun p => ⟨(normFactor : ℂ), p⟩)

end bose

/-- `isobarDecayTopology.cc` l.672-690 `isobarIsAffectedByPermutation`; `below` are the indices of the
final-state particles below the vertex (`getFsPartIndicesConnectedToVertex`). -/
def isobarIsAffected (below : List ℕ) (perm : List ℕ) : Bool :=
  (List.range perm.length).any fun i =>
    match perm[i]? with
    | none => false
    | some pi =>
      if pi = i then false
      else (!below.contains pi && below.contains i) || (!below.contains i && below.contains pi)

/-- A decay tree as seen by `getFsPartIndicesConnectedToVertex`: a final-state particle with its index
or a two-body vertex. -/
inductive Tree where
  | fs (i : ℕ)
  | vertex (d1 d2 : Tree)

/-- `isobarDecayTopology.cc` l.729-767 `getFsPartIndicesConnectedToVertex`. -/
def Tree.fsIndices : Tree → List ℕ
  | .fs i => [i]
  | .vertex a b => a.fsIndices ++ b.fsIndices

section isospin

/-- `isobarDecayTopology.cc` l.849-886 `getFsParticleGroupsByJPI`; `β` is the triple (I, J, P), `ps` the
particles in order.  A particle is appended to *every* group whose first member agrees with it (there
is no `break`), and to a new group when there is none. -/
def groupsByJPI {β : Type} [DecidableEq β] (ps : List β) : List (List ℕ) :=
  (List.range ps.length).foldl (fun gs i =>
    let same := fun (g : List ℕ) => (g.head?.bind fun k => ps[k]?) = ps[i]?
    if gs.any same then gs.map fun g => if same g then g ++ [i] else g
    else gs ++ [[i]]) []

/-- `do { … } while (next_permutation(cur))`, l.894-897: the visited orders. -/
def permLoop (cur : List ℕ) : Option (List (List ℕ)) :=
  if (nextPermutation cur).2 then do
    let r ← permLoop (nextPermutation cur).1
    some (cur :: r)
  else some [cur]
partial_fixpoint

/-- `isobarDecayTopology.cc` l.889-915 `getAllGroupPermutations`, on the *reversed* list of groups
(the C++ code peels the last group off).  No group at all is undefined behaviour (`groupsExt.size() - 1`
wraps): `none`, as is divergence. -/
def allGroupPermsRev : List (List ℕ) → Option (List (List (List ℕ)))
  | [] => none
  | [g] => (permLoop (g.insertionSort (· ≤ ·))).bind fun ps => some (ps.map fun p => [p])
  | g :: gs => (allGroupPermsRev gs).bind fun sub =>
      (permLoop (g.insertionSort (· ≤ ·))).bind fun ps =>
        some (ps.flatMap fun p => sub.map fun s => s ++ [p])

/-- `isobarDecayTopology.cc` l.889-915. -/
def getAllGroupPermutations (gs : List (List ℕ)) : Option (List (List (List ℕ))) :=
  allGroupPermsRev gs.reverse

/-- `isobarDecayTopology.cc` l.545-577: comparison of a candidate `perm` with one accepted map `acc`.
`name`, `from'` give name and mother vertex of a final-state particle. -/
def clashes (name : ℕ → String) (from' : ℕ → ℕ) (acc perm : List ℕ) : Bool :=
  (List.range perm.length).any fun i =>
    let ai := acc.getD i 0
    let pi := perm.getD i 0
    if ai = pi then false
    else if name ai = name pi then true
    else (List.range perm.length).any fun j =>
      let aj := acc.getD j 0
      let pj := perm.getD j 0
      decide (i < j) && decide (aj ≠ pj) && decide (from' ai = from' aj) &&
        decide (from' ai = from' pi) && decide (from' pi = from' pj)

/-- `isobarDecayTopology.cc` l.524-627: the candidates kept by the isospin symmetrisation;
`couples perm` is the check l.586-602 that all vertices can couple after the isospin projections have
been permuted. -/
def isospinKept (name : ℕ → String) (from' : ℕ → ℕ) (couples : List ℕ → Bool)
    (cands : List (List ℕ)) : List (List ℕ) :=
  cands.foldl (fun acc p =>
    if acc.any (fun a => clashes name from' a p) then acc
    else if couples p then acc ++ [p] else acc) []

end isospin

section amplitude

/-- `decayTopology.cc` l.837-864 `revertMomenta(fsPartPermMap)`, seen as a function: the momenta of
particles `0, 1, …`; particle `i` gets the cached momentum `m perm[i]`.  (Stateful version:
`Model/EventMomenta`.) -/
def permuted {M : Type} (m : ℕ → M) (perm : List ℕ) : List M := perm.map m

/-- `isobarAmplitude.cc` l.355-367: combination of isospin and Bose terms,
`newSymTermMap[i] = boseSymTermMap[isoSymTermMap[i]]`.  (`isoTerms = [id]` with weight 1 when isospin
symmetrisation is off, l.332; a single Bose term gets weight 1 anyway.) -/
def combine (iso bose : List SymTerm) : List SymTerm :=
  iso.flatMap fun s => bose.map fun b =>
    ⟨s.factor * b.factor, s.perm.map fun k => b.perm.getD k 0⟩

/-- `isobarAmplitude.cc` l.118-132 `amplitude`: the symmetrised amplitude for the cached momenta `m`;
`A` is the un-symmetrised amplitude (`symTermAmp` after the momenta have been set). -/
def amplitude {M : Type} (terms : List SymTerm) (A : List M → ℂ) (m : ℕ → M) : ℂ :=
  (terms.map fun t => t.factor * A (permuted m t.perm)).sum

end amplitude

end Rpwa.Sym

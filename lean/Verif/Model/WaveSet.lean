import Verif.Model.Particle
import Verif.Model.Spin
import Verif.Model.Vertex
/-!
# Wave-set generation

Models `decayAmplitude/waveSetGenerator.cc` (and the pieces of `massDependence.cc`, `particle.cc`, `physUtils.hpp`
it uses).  Simplifications:
* the template decay graph is a binary tree; the graph library's bookkeeping (nodes, clones, sub-decays, joins) is
  replaced by building trees, and the map `decayPossibilities` by recursion over the tree (every node of the reversed
  depth-first order is handled after its daughters);
* the order of `adjacentVertices` is taken to be the order of the daughters;
* `spinStatesCanCouple` for isospins is the parameter `cg` (see `Model/Vertex`);
* the corrections after the loops (l.436-450: production vertex, isobar charges, X flavour quantum numbers) write
  values that the vertices already have and are omitted. -/
namespace Rpwa.WaveSet
open Rpwa.Particle Rpwa.Spin
open Rpwa.Vertex (CgTest)

/-- the parameters (`waveSetGenerator.h`, `waveSetGenerator.cc` l.96-131), spins in ħ/2. -/
structure Cfg where
  isospinRange : Int × Int
  JRange : Int × Int
  MRange : Int × Int
  LRange : Int × Int
  SRange : Int × Int
  reflectivity : Int
  useReflectivity : Bool
  allowSpinExotics : Bool
  requireMinIsobarMass : Bool
  massWindow : Rat
  whiteList : List Name
  blackList : List Name
  forceDecayCheck : Bool

/-- `particleData/particle.h`: properties plus index, spin projection and reflectivity (momentum omitted). -/
structure Part where
  props : Props
  index : Int
  spinProj : Int
  refl : Int

/-- template decay tree: final-state particles and isobar vertices with their template parent and mass dependence. -/
inductive Template where
  | fs (p : Part)
  | node (parent : Part) (massDep : Name) (t1 t2 : Template)

/-- a generated (sub)decay. -/
inductive Decay where
  | fs (p : Part)
  | node (parent : Part) (L S : Int) (massDep : Name) (d1 d2 : Decay)

/-- `vertex(topNode)->inParticles()[0]` (l.190-192). -/
def Decay.top : Decay → Part
  | .fs p => p
  | .node p _ _ _ _ _ => p

/-- `particleProperties.cc` l.579-595 `isEqualTo`. -/
def propsEq (a b : Props) : Bool :=
  decide (a.fullName = b.fullName) && decide (a.antiFullName = b.antiFullName) && decide (a.charge = b.charge) &&
  decide (a.mass = b.mass) && decide (a.width = b.width) && decide (a.baryonNmb = b.baryonNmb) &&
  decide (a.isospin = b.isospin) && decide (a.strangeness = b.strangeness) && decide (a.charm = b.charm) &&
  decide (a.beauty = b.beauty) && decide (a.G = b.G) && decide (a.J = b.J) && decide (a.P = b.P) && decide (a.C = b.C)

/-- `particle.cc` l.138-149 `isEqualTo`. -/
def partEq (a b : Part) : Bool :=
  propsEq a.props b.props && decide (a.spinProj = b.spinProj) && decide (a.index = b.index) && decide (a.refl = b.refl)

/-- `particleProperties.h` l.232-236 `isXParticle` (bare name). -/
def isX (p : Props) : Bool := decide (p.name ∈ [['X'], ['X', '-'], ['X', '0'], ['X', '+']])

/-- `utilities/physUtils.hpp` l.170-193 `reflectivityFactor`. -/
def reflectivityFactor (J P M refl : Int) : Int :=
  if P.natAbs ≠ 1 then 0
  else if M < 0 then 0
  else if refl.natAbs ≠ 1 then 0
  else refl * P * powMinusOne ((J - M).tdiv 2)

/-- a loop that appends results to a list and may stop the program. -/
def forEach {α β : Type} : List α → (α → Outcome (List β)) → Outcome (List β)
  | [], _ => .ok []
  | a :: as, f => do
    let x ← f a
    let y ← forEach as f
    return x ++ y

/-! ### mass dependences -/

/-- `massDependence.h` l.203 -/
def bwName : Name := "relativisticBreitWigner".toList
/-- `massDependence.h` l.151-485: the names known without settings (`binned` needs settings and aborts). -/
def knownMassDeps : List Name :=
  ["flat".toList, bwName, "constWidthBreitWigner".toList, "rhoBreitWigner".toList, "f0980BreitWigner".toList,
   "f0980FlatteBesII".toList, "piPiSWaveAuMorganPenningtonM".toList, "piPiSWaveAuMorganPenningtonVes".toList,
   "piPiSWaveAuMorganPenningtonKachaev".toList, "rhoPrime".toList, "KPiSGLASS".toList,
   "KPiSPalanoPennington".toList]

/-- `massDependence.cc` l.111-143 `createMassDependence(massDepType, nullptr)`: the canonical name of the object;
`terminate` for `binned` (aborts) and for unknown names (null pointer, the only caller here aborts). -/
def createMassDependence (n : Name) : Outcome Name :=
  if n = [] then .ok bwName
  else if n = "f_0(980)".toList then .ok "f0980BreitWigner".toList
  else if n = "f_0(980)Flatte".toList then .ok "f0980FlatteBesII".toList
  else if n ∈ knownMassDeps then .ok n
  else .terminate

/-- l.586-588: the name is marked as used; the empty name and the Breit-Wigner are marked together. -/
def markUsed (n : Name) (used : List Name) : List Name :=
  let used := n :: used
  let used := if n = bwName then [] :: used else used
  if n = [] then bwName :: used else used

/-- l.584-601: the loop over the mass dependences of one decay mode; state = (used names, results). -/
def massDepLoop : List Name → List Name × List Name → Outcome (List Name × List Name)
  | [], st => .ok st
  | n :: ns, (used, out) =>
    if n ∈ used then massDepLoop ns (used, out)
    else
      match createMassDependence n with
      | .ok m => massDepLoop ns (markUsed n used, out ++ [m])
      | _ => .terminate

/-- l.572-613: the loop over the decay modes of the isobar. `dflt` is the mass dependence of the template vertex. -/
def modeLoop (dflt : Name) (d : DecayMode) : List DecayMode → List Name × List Name → Outcome (List Name × List Name)
  | [], st => .ok st
  | m :: ms, st =>
    if !m.eq d then modeLoop dflt d ms st
    else if m.massDeps ≠ [] then
      match massDepLoop m.massDeps st with
      | .ok st => modeLoop dflt d ms st
      | .terminate => .terminate
      | .ub => .ub
    else if bwName ∈ st.1 then modeLoop dflt d ms st
    else modeLoop dflt d ms ([] :: bwName :: st.1, st.2 ++ [dflt])

/-- `waveSetGenerator.cc` l.562-621 `setMassDepsForDecayTopology`. -/
def setMassDeps (dflt : Name) (isobar : Props) (d : DecayMode) : Outcome (List Name) :=
  match modeLoop dflt d isobar.decays ([], []) with
  | .ok (_, []) => .ok [dflt]
  | .ok (_, out) => .ok out
  | .terminate => .terminate
  | .ub => .ub

/-! ### one vertex -/

/-- the quantum numbers fixed by the daughters (l.217-223, 266-275). -/
def parentP (a b : Props) (L : Int) : Int := a.P * b.P * powMinusOne (L.tdiv 2)
def parentG (a b : Props) : Int := a.G * b.G
def parentIz (a b : Props) : Int :=
  2 * (a.charge + b.charge) - ((a.baryonNmb + b.baryonNmb) + (a.strangeness + b.strangeness) + (a.charm + b.charm)
    + (a.beauty + b.beauty))
def parentC (a b : Props) (I : Int) : Int :=
  if (a.baryonNmb + b.baryonNmb == 0) && (parentIz a b == 0) && (a.strangeness + b.strangeness == 0)
      && (a.charm + b.charm == 0) && (a.beauty + b.beauty == 0)
  then parentG a b * powMinusOne (I.tdiv 2) else 0

/-- l.344-348: the properties looked for: the template parent with the flavour and spin quantum numbers replaced. -/
def isobarProp (parent a b : Props) (L J I : Int) : Props :=
  { parent with
    baryonNmb := a.baryonNmb + b.baryonNmb
    strangeness := a.strangeness + b.strangeness
    charm := a.charm + b.charm
    beauty := a.beauty + b.beauty
    isospin := (I.natAbs : Int)
    G := signum (parentG a b)
    J := (J.natAbs : Int)
    P := signum (parentP a b L)
    C := signum (parentC a b I) }

/-- l.288-342: the filters; `ok false` = `continue`; a failing `assert` terminates. -/
def qnFilter (cfg : Cfg) (cg : CgTest) (a b : Part) (S L J I : Int) : Outcome Bool :=
  if !cg a.props.isospin a.props.isospinProj b.props.isospin b.props.isospinProj I (parentIz a.props b.props) then
    .ok false
  else if !cfg.allowSpinExotics && igjpIsExotic I (parentG a.props b.props) J (parentP a.props b.props L) then .ok false
  else
    match antiPartProperties b.props with
    | .ok anti =>
      if propsEq anti a.props && parentG a.props b.props != powMinusOne ((I + L + S).tdiv 2) then .ok false
      else if propsEq anti a.props && !(parentIz a.props b.props == 0
          && parentC a.props b.props I == powMinusOne ((L + S).tdiv 2)) then .terminate
      else if partEq a b && powMinusOne ((I + L + S).tdiv 2) != powMinusOne a.props.isospin then .ok false
      else .ok true
    | .terminate => .terminate
    | .ub => .ub

/-- l.353-364: spin projections and reflectivities of X. -/
def mRange (cfg : Cfg) (J : Int) : List Int :=
  stepBy2 (spinQnLargerEqual (if cfg.useReflectivity then spinQnSmallerEqual J 0 else -J) cfg.MRange.1)
    (spinQnSmallerEqual J cfg.MRange.2)
def reflRange (cfg : Cfg) : List Int :=
  if cfg.useReflectivity then
    if cfg.reflectivity == 0 then stepBy2 (-1) 1 else stepBy2 (signum cfg.reflectivity) (signum cfg.reflectivity)
  else stepBy2 0 0

/-- l.365-395: the (M, reflectivity) loop. -/
def mReflList (cfg : Cfg) (J P : Int) : List (Int × Int) :=
  (mRange cfg J).flatMap fun M => (reflRange cfg).flatMap fun r =>
    if cfg.useReflectivity && M == 0 && reflectivityFactor J P M r == 1 then [] else [(M, r)]

/-- l.397-402: minimum isobar mass. -/
def minIsobarMass (cfg : Cfg) (a b : Props) : Rat :=
  if cfg.requireMinIsobarMass then (a.mass - cfg.massWindow * a.width) + (b.mass - cfg.massWindow * b.width) else 0

/-- l.404-405: the decay mode looked for. -/
def decayModeOf (a b : Props) (L S : Int) : DecayMode := { daughters := {a.fullName, b.fullName}, L := L, S := S }

/-- the body of the innermost loop (l.344-431): all decays for one choice of daughters and quantum numbers. The charge
of the parent becomes the sum of the daughter charges (`createNewDecayTopology`, l.555 `setCharge`, aborts for
|charge| ≥ 10). -/
def buildParents (cfg : Cfg) (t : Table) (parent : Part) (massDep : Name) (d1 d2 : Decay) (S L J I : Int) :
    Outcome (List Decay) :=
  let a := d1.top.props
  let b := d2.top.props
  let prop := isobarProp parent.props a b L J I
  if isX parent.props then
    forEach (mReflList cfg J (parentP a b L)) fun mr => do
      let q ← prop.setCharge (a.charge + b.charge)
      return [Decay.node { parent with props := q, spinProj := mr.1, refl := mr.2 } L S massDep d1 d2]
  else
    forEach (entriesMatching t prop "allQn" (minIsobarMass cfg a b) cfg.massWindow cfg.whiteList cfg.blackList
        (decayModeOf a b L S) cfg.forceDecayCheck) fun isobar => do
      let q ← isobar.setCharge (a.charge + b.charge)
      let mds ← setMassDeps massDep isobar (decayModeOf a b L S)
      return mds.map fun m => Decay.node { parent with props := q } L S m d1 d2

/-- l.226-343: the loops over S, L, J and I for one pair of daughter decays. -/
def pairDecays (cfg : Cfg) (cg : CgTest) (t : Table) (parent : Part) (massDep : Name) (d1 d2 : Decay) :
    Outcome (List Decay) :=
  let a := d1.top
  let b := d2.top
  let sr := getSpinRangeIn a.props.J b.props.J cfg.SRange.1 cfg.SRange.2
  forEach (stepBy2 sr.lo sr.hi) fun S =>
    forEach (stepBy2 (max 0 cfg.LRange.1) cfg.LRange.2) fun L =>
      let jr := getSpinRangeIn L S cfg.JRange.1 cfg.JRange.2
      forEach (stepBy2 jr.lo jr.hi) fun J =>
        let ir := getSpinRangeIn a.props.isospin b.props.isospin cfg.isospinRange.1 cfg.isospinRange.2
        forEach (stepBy2 ir.lo ir.hi) fun I => do
          let keep ← qnFilter cfg cg a b S L J I
          if keep then buildParents cfg t parent massDep d1 d2 S L J I else return []

/-- l.165-433: all decays of a template node (final-state nodes: l.168-174). -/
def decays (cfg : Cfg) (cg : CgTest) (t : Table) : Template → Outcome (List Decay)
  | .fs p => .ok [.fs p]
  | .node parent massDep t1 t2 => do
    let l1 ← decays cfg cg t t1
    let l2 ← decays cfg cg t t2
    forEach l1 fun d1 => forEach l2 fun d2 => pairDecays cfg cg t parent massDep d1 d2

/-! ### removal of Bose duplicates -/

/-- state of `findBoseSymDecays`: tagged for removal, tagged for keeping -/
abbrev Tags := List Nat × List Nat

/-- the inner loop l.691-763: `partner w i` stands for all comparisons l.694-731 succeeding; `heavyFirst w` for
`daughters[0]->mass() > daughters[1]->mass()`. Tagging twice aborts. -/
def innerLoop (partner : Nat → Nat → Bool) (heavyFirst : Nat → Bool) (w : Nat) : List Nat → Tags → Outcome Tags
  | [], s => .ok s
  | i :: is, s =>
    if i == w || !partner w i then innerLoop partner heavyFirst w is s
    else
      let (rem, keep) := if heavyFirst w then (i, w) else (w, i)
      if rem ∈ s.1 || keep ∈ s.2 then .terminate
      else innerLoop partner heavyFirst w is (rem :: s.1, keep :: s.2)

/-- l.624-771 `findBoseSymDecays`; `candidate w`: exactly one Bose-symmetric vertex with different daughters
(l.643-659). -/
def outerLoop (n : Nat) (candidate : Nat → Bool) (partner : Nat → Nat → Bool) (heavyFirst : Nat → Bool) :
    List Nat → Tags → Outcome Tags
  | [], s => .ok s
  | w :: ws, s =>
    if w ∈ s.1 || w ∈ s.2 || !candidate w then outerLoop n candidate partner heavyFirst ws s
    else do
      let s ← innerLoop partner heavyFirst w (List.range n) s
      outerLoop n candidate partner heavyFirst ws s

/-- indices of the waves to be removed. -/
def findBoseSymDecays (n : Nat) (candidate : Nat → Bool) (partner : Nat → Nat → Bool) (heavyFirst : Nat → Bool) :
    Outcome (List Nat) :=
  (outerLoop n candidate partner heavyFirst (List.range n) ([], [])).map Prod.fst

/-- l.453-462: the waves that stay (`remove_if` with the list of indices), and l.464-475: abort if two waves have the
same name. -/
def postProcess {W N : Type} [DecidableEq N] (waves : List W) (name : W → N) (remove : List Nat) : Outcome (List W) :=
  let kept := (waves.zipIdx.filter fun x => decide (x.2 ∉ remove)).map Prod.fst
  if (kept.map name).Nodup then .ok kept else .terminate

end Rpwa.WaveSet

import Verif.Model.Particle
import Verif.Model.WaveName
/-!
# Key files: decay amplitudes written to and read from configuration settings

Models `decayAmplitude/waveDescription.cc` (reading: `constructDecayTopology`, `constructAmplitude` and helpers; writing:
`setKeysFromAmplitude` and helpers), the creation of mass dependences (`decayAmplitude/massDependence.cc` l.110-150 and the
`Create` functions) and `isobarDecayTopology::calcIsobarCharges`.  Simplifications:
* libconfig is a tree of settings; writing the text and parsing it again keeps names, order, strings, integers and flags and
  maps every number `x` to `prec x` (libconfig prints six digits by default); numbers are rationals;
* a decay topology is the tree of its isobar decay vertices; the topology and consistency checks are taken to succeed;
* whether a vertex is that of X (l.1069, comparison by value) is decided by its position in the tree. -/
namespace Rpwa.KeyFile

open Rpwa.Particle

/-- a libconfig setting. -/
inductive Setting where
  | int (z : ℤ)
  | float (x : ℚ)
  | str (s : Name)
  | bool (b : Bool)
  | list (l : List Setting)
  | group (g : List (String × Setting))

/-- `Setting::exists`, `Setting::operator[]`. -/
def Setting.member (key : Setting) (name : String) : Option Setting :=
  match key with
  | .group g => g.lookup name
  | _ => none

/-- `Setting::getIndex` of the member with this name. -/
def Setting.index (key : Setting) (name : String) : ℕ :=
  match key with
  | .group g => g.findIdx (fun e => e.1 == name)
  | _ => 0

/-- `Setting::lookupValue(name, int&)`. -/
def Setting.lookupInt (key : Setting) (name : String) : Option ℤ :=
  match key.member name with
  | some (.int z) => some z
  | _ => none
/-- `Setting::lookupValue(name, double&)`: integers are not converted. -/
def Setting.lookupFloat (key : Setting) (name : String) : Option ℚ :=
  match key.member name with
  | some (.float x) => some x
  | _ => none
/-- `Setting::lookupValue(name, std::string&)`. -/
def Setting.lookupStr (key : Setting) (name : String) : Option Name :=
  match key.member name with
  | some (.str s) => some s
  | _ => none
/-- `Setting::lookupValue(name, bool&)`. -/
def Setting.lookupBool (key : Setting) (name : String) : Option Bool :=
  match key.member name with
  | some (.bool b) => some b
  | _ => none

/-- utilities/libConfigUtils.hpp l.92-114 `findLibConfigGroup`. -/
def findGroup (key : Setting) (name : String) : Option Setting :=
  match key.member name with
  | some (.group g) => some (.group g)
  | _ => none
/-- utilities/libConfigUtils.hpp l.117-147 `findLibConfigList`: a list that is not empty. -/
def findList (key : Setting) (name : String) : Option (List Setting) :=
  match key.member name with
  | some (.list l) => if l = [] then none else some l
  | _ => none

/-- particleData/particle.h: the fields of a particle (Lorentz vector excluded). -/
structure Part where
  props : Props
  spinProj : ℤ := 0
  index : ℤ := -1
  refl : ℤ := 0

/-- particleData/particle.cc l.76-91, `createParticle(name, requirePartInTable)`: the entry of the particle data table, else
only name and charge. -/
def createParticle (t : Table) (name : Name) : Outcome Part := do
  match ← fillFromDataTable t name with
  | some p => return { props := p }
  | none => return { props := ← Props.default.setName name }

/-- waveDescription.cc l.797-830 `constructParticle`; `none` is the return value `false`. -/
def constructParticle (t : Table) (key : Setting) : Outcome (Option Part) :=
  match key.lookupStr "name" with
  | none => return none
  | some n => do
    let p ← createParticle t n
    let p := match key.lookupInt "spinProj" with
      | some m => { p with spinProj := m }
      | none => p
    let p := match key.lookupInt "index" with
      | some i => { p with index := i }
      | none => p
    return some p

/-- parameters of the generalised LASS parametrisation (massDependence.h l.431). -/
structure Glass where
  (a r M0 G0 phiF phiR phiRsin F R MMax : ℚ)
  tag : Name

/-- the mass dependences (massDependence.h). -/
inductive MassDep where
  | flat
  | binned (lo hi : ℚ)
  | relBW
  | plain (d : Fit.PlainMassDep)
  | glass (g : Glass)
  | palano (mMax : ℚ)

/-- `name()` of the mass dependences (massDependence.h `cName`s). -/
def MassDep.name : MassDep → Name
  | .flat => "flat".toList
  | .binned _ _ => "binned".toList
  | .relBW => "relativisticBreitWigner".toList
  | .plain d => d.cName
  | .glass _ => "KPiSGLASS".toList
  | .palano _ => "KPiSPalanoPennington".toList

/-- massDependence.cc l.189-214 `binnedMassDependence::Create`; an element of the list that is no floating-point number throws
an exception nobody catches. -/
def createBinned (key : Setting) : Outcome MassDep :=
  match findList key "bounds" with
  | some [.float lo, .float hi] => if lo > hi then .terminate else .ok (.binned lo hi)
  | _ => .terminate

/-- massDependence.cc l.103-108 `lookupParameter`. -/
def lookupParameter (key : Setting) (name : String) : Outcome ℚ :=
  match key.lookupFloat name with
  | some x => .ok x
  | none => .terminate

/-- massDependence.cc l.662-691 `KPiSGLASS::Create`. -/
def createGlass (key : Setting) : Outcome MassDep := do
  let a ← lookupParameter key "a"
  let r ← lookupParameter key "r"
  let M0 ← lookupParameter key "M0"
  let G0 ← lookupParameter key "G0"
  let phiF ← lookupParameter key "phiF"
  let phiR ← lookupParameter key "phiR"
  let phiRsin ← lookupParameter key "phiRsin"
  let F ← lookupParameter key "F"
  let R ← lookupParameter key "R"
  let MMax ← lookupParameter key "MMax"
  match key.lookupStr "tag" with
  | none => .terminate
  | some tag =>
    if tag.any (fun c => ['>', '<', ']', '[', '='].contains c) then .terminate
    else .ok (.glass ⟨a, r, M0, G0, phiF, phiR, phiRsin, F, R, MMax, tag⟩)

/-- massDependence.cc l.110-150: the classes without parameters, in the order of the template argument list. -/
def plainByName (n : Name) : Option Fit.PlainMassDep :=
  [Fit.PlainMassDep.constWidthBreitWigner, .rhoBreitWigner, .f0980BreitWigner, .f0980FlatteBesII, .piPiM, .piPiVes,
    .piPiKachaev, .rhoPrime].find? (fun d => d.cName == n)

/-- massDependence.cc l.110-150 `createMassDependence`; `none` is the null pointer. -/
def createMassDependence (n : Name) (key : Setting) : Outcome (Option MassDep) :=
  if n = [] then return some .relBW
  else if n = "f_0(980)".toList then return some (.plain .f0980BreitWigner)
  else if n = "f_0(980)Flatte".toList then return some (.plain .f0980FlatteBesII)
  else if n = "flat".toList then return some .flat
  else if n = "binned".toList then return some (← createBinned key)
  else if n = "relativisticBreitWigner".toList then return some .relBW
  else match plainByName n with
  | some d => return some (.plain d)
  | none =>
    if n = "KPiSGLASS".toList then return some (← createGlass key)
    else if n = "KPiSPalanoPennington".toList then return some (.palano ((key.lookupFloat "MMax").getD 2.4))
    else return none

/-- waveDescription.cc l.833-851 `mapMassDependenceType`; without a group the default. -/
def mapMassDependenceType (key : Option Setting) : Outcome MassDep :=
  match key with
  | none => return .relBW
  | some k => do return (← createMassDependence ((k.lookupStr "name").getD []) k).getD .relBW

/-- a particle of the decay: in the final state, or an isobar with its decay vertex. -/
inductive Decay where
  | fs (p : Part)
  | iso (p : Part) (md : MassDep) (L S : ℕ) (d1 d2 : Decay)

def Decay.part : Decay → Part
  | .fs p => p
  | .iso p _ _ _ _ _ => p

/-- conversion of `int` to `unsigned int`. -/
def uintOf (z : ℤ) : ℕ := (z % 2 ^ 32).toNat
/-- conversion of `unsigned int` to `int`. -/
def intOf (n : ℕ) : ℤ := if n < 2 ^ 31 then n else (n : ℤ) - 2 ^ 32

/-- waveDescription.cc l.866-875: the final-state daughters; `false` if one of them has no name. -/
def readFs (t : Table) : List Setting → Outcome (Bool × List Part)
  | [] => return (true, [])
  | k :: ks => do
    let p ← constructParticle t k
    let r ← readFs t ks
    match p with
    | some p => return (r.1, p :: r.2)
    | none => return (false, r.2)

/-- waveDescription.cc l.896-902: `S` is looked for only if `L` is there. -/
def readLS (key : Setting) : ℤ × ℤ :=
  match key.lookupInt "L" with
  | none => (0, 0)
  | some L => (L, (key.lookupInt "S").getD 0)

/-- waveDescription.cc l.904-909: only for particles not called X; a null pointer becomes the flat mass dependence
(isobarDecayVertex.cc l.79-83). -/
def readMassDep (key : Setting) (parent : Part) : Outcome MassDep :=
  if parent.props.name ≠ "X".toList then mapMassDependenceType (findGroup key "massDep") else return .flat

/-- waveDescription.cc l.911-926: daughters in the order of the lists in the key file. -/
def orderDaughters (key : Setting) (fsD : List Part) (isoD : List Decay) : List Decay :=
  if fsD.length = 1 ∧ isoD.length = 1 then
    if key.index "fsParticles" < key.index "isobars" then fsD.map .fs ++ isoD else isoD ++ fsD.map .fs
  else if fsD.length = 2 then fsD.map .fs
  else if isoD.length = 2 then isoD
  else []

theorem findList_sizeOf {key : Setting} {name : String} {l : List Setting} (h : findList key name = some l) :
    sizeOf l < sizeOf key := by
  unfold findList Setting.member at h
  cases key with
  | group g =>
    simp only at h
    split at h
    · rename_i l' e
      split at h
      · cases h
      · cases h
        have : (name, Setting.list l) ∈ g := by
          clear * - e
          induction g with
          | nil => cases e
          | cons x g ih =>
            rw [List.lookup_cons] at e
            split at e
            · rename_i hx
              have : name = x.1 := by simpa using hx
              exact List.mem_cons.mpr (.inl (Prod.ext this (Option.some.inj e).symm))
            · exact List.mem_cons.mpr (.inr (ih e))
        have h1 := List.sizeOf_lt_of_mem this
        have h2 : sizeOf l < sizeOf (name, Setting.list l) := by simp; omega
        simp only [Setting.group.sizeOf_spec]
        omega
    · cases h
  | _ => cases h

/-- waveDescription.cc l.866-875 with `findLibConfigList`. -/
def readFsList (t : Table) (key : Setting) : Outcome (Bool × List Part) :=
  match findList key "fsParticles" with
  | some l => readFs t l
  | none => pure (true, [])

/-- waveDescription.cc l.890-935: the vertex, once the daughters have been read (`none`: problems with the isobars). -/
def buildVertex (key : Setting) (parent : Part) (fs : Bool × List Part) (iso : Option (List Decay × List Part)) :
    Outcome (Option (Decay × List Part)) :=
  match iso with
  | none => return none
  | some (isoD, isoFs) =>
    if fs.1 = false ∨ fs.2.length + isoD.length ≠ 2 then return none
    else do
      let md ← readMassDep key parent
      match orderDaughters key fs.2 isoD with
      | [d1, d2] =>
        return some (.iso parent md (uintOf (readLS key).1) (uintOf (readLS key).2) d1 d2, fs.2 ++ isoFs)
      | _ => .terminate

mutual
/-- waveDescription.cc l.854-935 `constructDecayVertex`; `none` is the return value `false`; the second component is
`fsParticles`. -/
def readVertex (t : Table) (key : Setting) (parent : Part) : Outcome (Option (Decay × List Part)) :=
  (readFsList t key).bind fun fs =>
  match h : findList key "isobars" with
  | some l => (readIsobars t none l).bind (buildVertex key parent fs)
  | none => buildVertex key parent fs (some ([], []))
termination_by sizeOf key
decreasing_by exact findList_sizeOf h

/-- waveDescription.cc l.877-888: the isobars; `prev` is `isobarDaughters.back()`, which is undefined if there is none. -/
def readIsobars (t : Table) (prev : Option Part) (l : List Setting) : Outcome (Option (List Decay × List Part)) :=
  match l with
  | [] => return some ([], [])
  | k :: ks => do
    let p ← constructParticle t k
    match p.or prev with
    | none => .ub
    | some back => do
      let v ← readVertex t k back
      let r ← readIsobars t (some back) ks
      match p, v, r with
      | some _, some (d, fs), some (ds, fss) => return some (d :: ds, fs ++ fss)
      | _, _, _ => return none
termination_by sizeOf l
end

/-- outgoing and incoming particles of the production vertices (diffractiveDissVertex.cc l.57-88, leptoProductionVertex.cc
l.58-92); `out` of the lepto-production vertex are the outgoing particles after X. -/
inductive Production where
  | diffractive (beam target recoil : Part)
  | lepto (beam target : Part) (out : List Part) (longPol : ℚ)
  | other

/-- decay topology. -/
structure Topology where
  prod : Production
  X : Part
  md : MassDep
  L : ℕ
  S : ℕ
  d1 : Decay
  d2 : Decay

/-- isobarAmplitude.h: topology and switches. -/
structure Amplitude where
  topo : Topology
  canonical : Bool
  bose : Bool
  isospin : Bool
  reflBasis : Bool

/-- waveDescription.cc l.671-714 `constructXParticle` with the constructor particleProperties.cc l.133-156. -/
def readX (key : Setting) : Outcome (Option Part) :=
  match key.lookupInt "isospin", key.lookupInt "J", key.lookupInt "P", key.lookupInt "M" with
  | some I, some J, some P, some M => do
    let opt := fun n => (key.lookupInt n).getD 0
    let p ← Props.default.setName "X".toList
    return some {
      props := { p with
        isospin := (I.natAbs : ℤ), G := signum (opt "G"), J := (J.natAbs : ℤ), P := signum P, C := signum (opt "C"),
        baryonNmb := opt "baryonNmb", strangeness := opt "strangeness", charm := opt "charm", beauty := opt "beauty" }
      spinProj := M, refl := opt "refl" }
  | _, _, _, _ => return none

/-- waveDescription.cc l.717-767 `mapProductionVertexType` and the constructors of the vertices: a recoil particle that is given
is not stored in the lepto-production vertex. -/
def readProduction (t : Table) (key : Setting) : Outcome (Option Production) := do
  let type := (key.lookupStr "type").getD []
  if type = "diffractiveDissVertex".toList ∨ type = "leptoProductionVertex".toList then
    let beam ← match findGroup key "beam" with
      | some k => constructParticle t k
      | none => pure none
    let recoil ← match findGroup key "recoil" with
      | some k => (constructParticle t k).map some
      | none => pure none
    let target ← match findGroup key "target" with
      | some k => constructParticle t k
      | none => pure none
    match beam, target, recoil with
    | some b, some tg, none =>
      if type = "diffractiveDissVertex".toList then return some (.diffractive b tg tg)
      else return some (.lepto b tg [tg, b] (((findGroup key "beam").bind (·.lookupFloat "longPol")).getD 0))
    | some b, some tg, some (some r) =>
      if type = "diffractiveDissVertex".toList then return some (.diffractive b tg r)
      else return some (.lepto b tg [b] (((findGroup key "beam").bind (·.lookupFloat "longPol")).getD 0))
    | _, _, _ => return none
  else return none

/-- isobarDecayTopology.cc l.277-294: one isobar after its daughters. -/
def fixCharges (t : Table) : Decay → Outcome Decay
  | .fs p => return .fs p
  | .iso p md L S d1 d2 => do
    let d1 ← fixCharges t d1
    let d2 ← fixCharges t d2
    let q := d1.part.props.charge + d2.part.props.charge
    let p' ← p.props.setCharge q
    if p.props.charge ≠ q then
      let r ← fillFromDataTable t p'.fullName
      return .iso { p with props := r.getD p' } md L S d1 d2
    else return .iso { p with props := p' } md L S d1 d2

/-- isobarDecayTopology.cc l.274-305 `calcIsobarCharges`. -/
def calcIsobarCharges (t : Table) (topo : Topology) : Outcome Topology := do
  let d1 ← fixCharges t topo.d1
  let d2 ← fixCharges t topo.d2
  let X ← topo.X.props.setCharge (d1.part.props.charge + d2.part.props.charge)
  let X := if X.charge.natAbs > 0 ∧ X.C ≠ 0 then { X with C := 0 } else X
  return { topo with X := { topo.X with props := X }, d1 := d1, d2 := d2 }

/-- waveDescription.cc l.410-474 `constructDecayTopology` (not from a template); second component: final-state particles. -/
def readTopology (t : Table) (root : Setting) : Outcome (Option (Topology × List Part)) := do
  match findGroup root "decayVertex" with
  | none => return none
  | some dv =>
    match findGroup dv "XQuantumNumbers" with
    | none => return none
    | some xq =>
      match ← readX xq with
      | none => return none
      | some X =>
        let prod ← match findGroup root "productionVertex" with
          | some k => readProduction t k
          | none => pure none
        match prod with
        | none => return none
        | some prod =>
          match findGroup dv "XDecay" with
          | none => return none
          | some xd =>
            match ← readVertex t xd X with
            | some (.iso _ md L S d1 d2, fs) => do
              return some (← calcIsobarCharges t ⟨prod, X, md, L, S, d1, d2⟩, fs)
            | _ => return none

/-- waveDescription.cc l.489-540 `constructAmplitude`. -/
def readAmplitude (t : Table) (root : Setting) : Outcome (Option (Amplitude × List Part)) := do
  match ← readTopology t root with
  | none => return none
  | some (topo, fs) =>
    let k := (findGroup root "amplitude").getD (.group [])
    return some (⟨topo, decide ((k.lookupStr "formalism").getD "helicity".toList = "canonical".toList),
      (k.lookupBool "boseSymmetrize").getD true, (k.lookupBool "isospinSymmetrize").getD true,
      (k.lookupBool "useReflectivityBasis").getD true⟩, fs)

/-! ### writing -/

/-- waveDescription.cc l.1028-1060 `setMassDependence`: the members it adds. -/
def massDepKeys (prec : ℚ → ℚ) (isX : Bool) (md : MassDep) : List (String × Setting) :=
  match isX, md with
  | true, .flat => []
  | false, .relBW => []
  | _, .binned lo hi =>
    [("massDep", .group [("name", .str "binned".toList), ("bounds", .list [.float (prec lo), .float (prec hi)])])]
  | _, md => [("massDep", .group [("name", .str md.name)])]

/-- a list is added only if it has elements. -/
def listKey (name : String) (l : List Setting) : List (String × Setting) := if l = [] then [] else [(name, .list l)]

/-- waveDescription.cc l.1091-1097: the final-state daughters, only their names. -/
def fsKeys : Decay → List Setting
  | .fs p => [.group [("name", .str p.props.fullName)]]
  | .iso _ _ _ _ _ _ => []

/-- waveDescription.cc l.1063-1099 `setXDecayKeys`: the members it adds, given those of the isobars. -/
def vertexKeys (prec : ℚ → ℚ) (isX : Bool) (md : MassDep) (L S : ℕ) (isobars fs : List Setting) : List (String × Setting) :=
  massDepKeys prec isX md ++ listKey "isobars" isobars ++ [("L", .int (intOf L)), ("S", .int (intOf S))]
    ++ listKey "fsParticles" fs

/-- waveDescription.cc l.1080-1088: the isobars. -/
def isoKeys (prec : ℚ → ℚ) : Decay → List Setting
  | .fs _ => []
  | .iso p md L S d1 d2 =>
    [.group (("name", .str p.props.fullName) ::
      vertexKeys prec false md L S (isoKeys prec d1 ++ isoKeys prec d2) (fsKeys d1 ++ fsKeys d2))]

/-- integer members that are left out if zero. -/
def optKey (name : String) (z : ℤ) : List (String × Setting) := if z ≠ 0 then [(name, .int z)] else []

/-- waveDescription.cc l.1000-1026 `setXQuantumNumbersKeys`. -/
def writeX (X : Part) : Setting :=
  .group ([("isospin", .int X.props.isospin)] ++ optKey "G" X.props.G ++ [("J", .int X.props.J), ("P", .int X.props.P)]
    ++ optKey "C" X.props.C ++ [("M", .int X.spinProj)] ++ optKey "refl" X.refl ++ optKey "baryonNmb" X.props.baryonNmb
    ++ optKey "strangeness" X.props.strangeness ++ optKey "charm" X.props.charm ++ optKey "beauty" X.props.beauty)

def particleKey (name : String) (p : Part) (more : List (String × Setting)) : String × Setting :=
  (name, .group (("name", .str p.props.fullName) :: more))

/-- waveDescription.cc l.955-997 `setProductionVertexKeys`; particles in the order of the map's keys.  `recoil()` of the
lepto-production vertex is the second outgoing particle. -/
def writeProduction (prec : ℚ → ℚ) : Production → Outcome Setting
  | .diffractive b tg r => return .group (("type", .str "diffractiveDissVertex".toList) :: particleKey "beam" b [] ::
      ((if r.props.fullName ≠ tg.props.fullName then [particleKey "recoil" r []] else []) ++ [particleKey "target" tg []]))
  | .lepto b tg out pol =>
    match out with
    | [] => .ub
    | r :: _ => return .group (("type", .str "leptoProductionVertex".toList) ::
        particleKey "beam" b [("longPol", .float (prec pol))] ::
        ((if r.props.fullName ≠ tg.props.fullName then [particleKey "recoil" r []] else []) ++ [particleKey "target" tg []]))
  | .other => return .group []

/-- waveDescription.cc l.1134-1160 `setAmplitude`. -/
def writeSwitches (a : Amplitude) : Setting :=
  .group ((if a.canonical then [("formalism", .str "canonical".toList)] else [])
    ++ (if a.bose then [] else [("boseSymmetrize", .bool false)])
    ++ (if a.isospin then [] else [("isospinSymmetrize", .bool false)])
    ++ (if a.reflBasis then [] else [("useReflectivityBasis", .bool false)]))

/-- waveDescription.cc l.1103-1131, 1163-1181 `setKeysFromTopology`, `setKeysFromAmplitude` with the production vertex; the
return value of `setProductionVertexKeys` is ignored. -/
def writeAmplitude (prec : ℚ → ℚ) (a : Amplitude) : Outcome Setting := do
  let prod ← writeProduction prec a.topo.prod
  return .group [("productionVertex", prod),
    ("decayVertex", .group [("XQuantumNumbers", writeX a.topo.X),
      ("XDecay", .group (vertexKeys prec true a.topo.md a.topo.L a.topo.S
        (isoKeys prec a.topo.d1 ++ isoKeys prec a.topo.d2) (fsKeys a.topo.d1 ++ fsKeys a.topo.d2)))]),
    ("amplitude", writeSwitches a)]

end Rpwa.KeyFile

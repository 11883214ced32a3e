import Verif.Props.Particle
import Verif.Props.Spin
import Verif.Spec.Clebsch
import Verif.Model.WaveSet
/-!
# Specification of wave-set generation (C17)

`IsWave cfg table template decay`: the decay has the shape of the template, and at every vertex the quantum numbers obey
the configured ranges, the conservation laws and the selection rules of S.U. Chung's "C- and G-parity" note. Only the data
types of the model (`Cfg`, `Part`, `Template`, `Decay`, particle table) are used. -/
namespace Rpwa.WaveSet
open Rpwa.Particle
open Rpwa.Spin (Triangle QuarkModelIGJP)
open Rpwa.Clebsch (racah Proj)

/-- `(-1)^n`. -/
def msgn (n : ℤ) : ℤ := if 2 ∣ n then 1 else -1

/-- third component of isospin (Gell-Mann–Nishijima, doubled). -/
def iz (p : Props) : ℤ := 2 * p.charge - p.baryonNmb - p.strangeness - p.charm - p.beauty

/-- flavour-neutral meson system with `I_z = 0`. -/
def FlavourNeutral (a b : Props) : Prop :=
  a.baryonNmb + b.baryonNmb = 0 ∧ a.strangeness + b.strangeness = 0 ∧ a.charm + b.charm = 0 ∧ a.beauty + b.beauty = 0 ∧
  iz a + iz b = 0

/-- equality of two particle records (decay modes are not compared). -/
def SameParticle (a b : Props) : Prop :=
  a.fullName = b.fullName ∧ a.antiFullName = b.antiFullName ∧ a.charge = b.charge ∧ a.mass = b.mass ∧ a.width = b.width ∧
  a.baryonNmb = b.baryonNmb ∧ a.isospin = b.isospin ∧ a.strangeness = b.strangeness ∧ a.charm = b.charm ∧
  a.beauty = b.beauty ∧ a.G = b.G ∧ a.J = b.J ∧ a.P = b.P ∧ a.C = b.C

/-- not a quark-antiquark state (for mesons with defined parities). -/
def SpinExotic (I G J P : ℤ) : Prop :=
  (G = 1 ∨ G = -1) ∧ (P = 1 ∨ P = -1) ∧ 2 ∣ I ∧ 2 ∣ J ∧ 0 ≤ I ∧ 0 ≤ J ∧ ¬ QuarkModelIGJP (I / 2).toNat G (J / 2) P

/-- inside an inclusive range -/
def In (r : ℤ × ℤ) (x : ℤ) : Prop := r.1 ≤ x ∧ x ≤ r.2

/-- The rules for one vertex with daughters `a`, `b`. -/
structure VertexAllowed (cfg : Cfg) (a b : Part) (L S J I G P C : ℤ) : Prop where
  totalSpin : Triangle a.props.J b.props.J S ∧ In cfg.SRange S
  orbital : 2 ∣ L ∧ 0 ≤ L ∧ In cfg.LRange L
  angMom : Triangle L S J ∧ In cfg.JRange J
  isospin : Triangle a.props.isospin b.props.isospin I ∧ In cfg.isospinRange I
  isospinCG : racah a.props.isospin (iz a.props) b.props.isospin (iz b.props) I (iz a.props + iz b.props) ≠ 0
  parity : P = a.props.P * b.props.P * msgn (L / 2)
  gParity : G = a.props.G * b.props.G
  cParity : (FlavourNeutral a.props b.props → C = G * msgn (I / 2)) ∧ (¬ FlavourNeutral a.props b.props → C = 0)
  exotic : cfg.allowSpinExotics = false → ¬ SpinExotic I G J P
  particleAntiparticle : SameParticle (conjugate b.props) a.props → G = msgn ((I + L + S) / 2)
  identical : SameParticle a.props b.props → a.index = b.index → a.spinProj = b.spinProj → a.refl = b.refl →
    msgn ((I + L + S) / 2) = msgn a.props.isospin

/-- spin projection and reflectivity of X; in the reflectivity basis only `M ≥ 0` (for half-integer spins the code starts at
`-1/2`, see `halfinteger_negative_M`). -/
def MReflAllowed (cfg : Cfg) (J P M r : ℤ) : Prop :=
  In cfg.MRange M ∧ M ≤ J ∧ 2 ∣ J - M ∧
  (cfg.useReflectivity = false → -J ≤ M ∧ r = 0) ∧
  (cfg.useReflectivity = true → (if 2 ∣ J then 0 else -1) ≤ M ∧ (r = 1 ∨ r = -1) ∧
    (0 < cfg.reflectivity → r = 1) ∧ (cfg.reflectivity < 0 → r = -1) ∧
    ¬ (M = 0 ∧ r * P * msgn ((J - M) / 2) = 1))

/-- quantum numbers of the isobar looked for in the table -/
def wanted (parent a b : Props) (J I G P C : ℤ) : Props :=
  { parent with
    baryonNmb := a.baryonNmb + b.baryonNmb, strangeness := a.strangeness + b.strangeness, charm := a.charm + b.charm,
    beauty := a.beauty + b.beauty, isospin := I, G := G, J := J, P := P, C := C }

/-- the decay mode `d` of the table matches (undefined L, S match anything). -/
def ModeMatches (d : DecayMode) (a b : Props) (L S : ℤ) : Prop :=
  d.daughters = {a.fullName, b.fullName} ∧ (d.L = -1 ∨ L = -1 ∨ d.L = L) ∧ (d.S = -1 ∨ S = -1 ∨ d.S = S)

/-- the object a mass-dependence name stands for. -/
inductive MassDepOf : Name → Name → Prop
  | empty : MassDepOf [] "relativisticBreitWigner".toList
  | old1 : MassDepOf "f_0(980)".toList "f0980BreitWigner".toList
  | old2 : MassDepOf "f_0(980)Flatte".toList "f0980FlatteBesII".toList
  | known {n : Name} : n ∈ knownMassDeps → MassDepOf n n

/-- the mass dependences to be used for an isobar: those requested by the matching decay modes of the table (a mode without
request stands for a relativistic Breit-Wigner), or a relativistic Breit-Wigner if no mode matches. -/
def MassDepAllowed (isobar a b : Props) (L S : ℤ) (m : Name) : Prop :=
  (∃ d ∈ isobar.decays, ModeMatches d a b L S ∧
    ((d.massDeps = [] ∧ m = "relativisticBreitWigner".toList) ∨ ∃ n ∈ d.massDeps, MassDepOf n m)) ∨
  ((∀ d ∈ isobar.decays, ¬ ModeMatches d a b L S) ∧ m = "relativisticBreitWigner".toList)

/-- minimum mass of an isobar -/
def MinMass (cfg : Cfg) (a b : Props) : Rat :=
  if cfg.requireMinIsobarMass then (a.mass - cfg.massWindow * a.width) + (b.mass - cfg.massWindow * b.width) else 0

/-- the waves (and sub-decays) that belong to a template. -/
inductive IsWave (cfg : Cfg) (t : Table) : Template → Decay → Prop
  | fs (p : Part) : IsWave cfg t (.fs p) (.fs p)
  | x {parent : Part} {md : Name} {t1 t2 : Template} {d1 d2 : Decay} {L S J I G P C M r : ℤ} :
      isX parent.props = true → IsWave cfg t t1 d1 → IsWave cfg t t2 d2 →
      VertexAllowed cfg d1.top d2.top L S J I G P C → MReflAllowed cfg J P M r →
      IsWave cfg t (.node parent md t1 t2)
        (.node { parent with
                  props := { wanted parent.props d1.top.props d2.top.props J I G P C with
                              charge := d1.top.props.charge + d2.top.props.charge },
                  spinProj := M, refl := r } L S md d1 d2)
  | isobar {parent : Part} {md m : Name} {t1 t2 : Template} {d1 d2 : Decay} {L S J I G P C : ℤ} {iso : Props} :
      isX parent.props = false → IsWave cfg t t1 d1 → IsWave cfg t t2 d2 →
      VertexAllowed cfg d1.top d2.top L S J I G P C →
      (∃ n, (n, iso) ∈ t) →
      Selected (wanted parent.props d1.top.props d2.top.props J I G P C) "allQn" (MinMass cfg d1.top.props d2.top.props)
        cfg.massWindow cfg.whiteList cfg.blackList
        { daughters := {d1.top.props.fullName, d2.top.props.fullName}, L := L, S := S } cfg.forceDecayCheck iso →
      MassDepAllowed iso d1.top.props d2.top.props L S m →
      IsWave cfg t (.node parent md t1 t2)
        (.node { parent with props := { iso with charge := d1.top.props.charge + d2.top.props.charge } } L S m d1 d2)

/-- well-formed templates: regular particles, and Breit-Wigner as the mass dependence of the isobars (the default of the key
file, `waveDescription.cc` l.834-850). -/
def Template.Wf : Template → Prop
  | .fs p => Regular p.props
  | .node p md t1 t2 => Regular p.props ∧ (isX p.props = false → md = "relativisticBreitWigner".toList) ∧ t1.Wf ∧ t2.Wf

end Rpwa.WaveSet

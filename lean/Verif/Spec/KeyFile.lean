import Verif.Model.KeyFile
/-!
# Specification of key files (C57)

What a key file can hold, and the amplitude that is described by the key file of an amplitude.
-/
namespace Rpwa.KeyFile.Spec

open Rpwa.Particle

/-- the particle is the one of the particle data table, without further settings -/
structure FromTable (t : Table) (p : Part) : Prop where
  inTable : entry t p.props.fullName = some p.props
  spinProj : p.spinProj = 0
  index : p.index = -1
  refl : p.refl = 0

/-- mass dependences a key file can hold; `prec x` is the number that is read where `x` was written -/
def Storable (prec : ℚ → ℚ) : MassDep → Prop
  | .glass _ => False
  | .palano m => m = 2.4
  | .binned lo hi => prec lo ≤ prec hi
  | _ => True

/-- decays of particles of the table that conserve charge and have storable mass dependences -/
def Writable (t : Table) (prec : ℚ → ℚ) : Decay → Prop
  | .fs p => FromTable t p
  | .iso p md L S d1 d2 => FromTable t p ∧ p.props.name ≠ "X".toList ∧ Storable prec md ∧ L < 2 ^ 32 ∧ S < 2 ^ 32 ∧
      p.props.charge = d1.part.props.charge + d2.part.props.charge ∧ p.props.charge.natAbs < 10 ∧
      Writable t prec d1 ∧ Writable t prec d2

/-- the X particle: only quantum numbers -/
structure XParticle (X : Part) (q : ℤ) : Prop where
  name : X.props.name = "X".toList
  antiName : X.props.antiName = []
  charge : X.props.charge = q
  small : q.natAbs < 10
  mass : X.props.mass = 0 ∧ X.props.mass2 = 0 ∧ X.props.width = 0
  isospin : 0 ≤ X.props.isospin
  J : 0 ≤ X.props.J
  signs : X.props.G ∈ [-1, 0, 1] ∧ X.props.P ∈ [-1, 0, 1] ∧ X.props.C ∈ [-1, 0, 1]
  charged : q ≠ 0 → X.props.C = 0
  decays : X.props.decays = []
  index : X.index = -1

/-- production vertices a key file can hold -/
def WritableProduction (t : Table) : Production → Prop
  | .diffractive b tg r => FromTable t b ∧ FromTable t tg ∧ FromTable t r
  | .lepto b tg out _ => FromTable t b ∧ FromTable t tg ∧ out = [tg, b]
  | .other => False

structure WritableAmplitude (t : Table) (prec : ℚ → ℚ) (a : Amplitude) : Prop where
  prod : WritableProduction t a.topo.prod
  X : XParticle a.topo.X (a.topo.d1.part.props.charge + a.topo.d2.part.props.charge)
  L : a.topo.L < 2 ^ 32
  S : a.topo.S < 2 ^ 32
  d1 : Writable t prec a.topo.d1
  d2 : Writable t prec a.topo.d2

/-- numbers with the precision of the file -/
def rounded (prec : ℚ → ℚ) : MassDep → MassDep
  | .binned lo hi => .binned (prec lo) (prec hi)
  | md => md

/-- isobars come before final-state particles -/
def isobarFirst : Decay → Decay → Decay × Decay
  | .fs p, .iso q md L S d1 d2 => (.iso q md L S d1 d2, .fs p)
  | d1, d2 => (d1, d2)

/-- the decay described by the key file -/
def described (prec : ℚ → ℚ) : Decay → Decay
  | .fs p => .fs p
  | .iso p md L S d1 d2 =>
    .iso p (rounded prec md) L S (isobarFirst (described prec d1) (described prec d2)).1
      (isobarFirst (described prec d1) (described prec d2)).2

/-- the production vertex described by the key file -/
def describedProduction (prec : ℚ → ℚ) : Production → Production
  | .lepto b tg out pol => .lepto b tg out (prec pol)
  | p => p

/-- the amplitude described by the key file: X has no mass dependence -/
def describedAmplitude (prec : ℚ → ℚ) (a : Amplitude) : Amplitude :=
  { a with topo := { a.topo with
      prod := describedProduction prec a.topo.prod
      md := .flat
      d1 := (isobarFirst (described prec a.topo.d1) (described prec a.topo.d2)).1
      d2 := (isobarFirst (described prec a.topo.d1) (described prec a.topo.d2)).2 } }

/-- final-state particles of a decay -/
def finalState : Decay → List Part
  | .fs p => [p]
  | .iso _ _ _ _ d1 d2 => finalState d1 ++ finalState d2

/-- every vertex has its isobar before a final-state particle, and the numbers survive writing -/
def Canonical (prec : ℚ → ℚ) : Decay → Prop
  | .fs _ => True
  | .iso _ md _ _ d1 d2 => rounded prec md = md ∧ isobarFirst d1 d2 = (d1, d2) ∧ Canonical prec d1 ∧ Canonical prec d2

end Rpwa.KeyFile.Spec

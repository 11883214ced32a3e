import Verif.Model.Spin

/-! # Isobar decay vertex: consistency check

Models `decayAmplitude/isobarDecayVertex.cc` l.203-345.  Only the quantum numbers of the particles are
kept.  `cgNonZero` stands for `clebschGordanCoeff<double>(…) != 0` (`utilities/spinUtils.hpp`
l.400-411, the six-argument `spinStatesCanCouple`); it is instantiated with the Clebsch-Gordan model in
`Props/Vertex`. -/

namespace Rpwa.Vertex

/-- The quantum numbers of a particle (`particleData/particleProperties.h`), spins and isospins in units
of 1/2. -/
structure Qn where
  charge : Int
  baryonNmb : Int
  strangeness : Int
  charm : Int
  beauty : Int
  isospin : Int
  G : Int
  J : Int
  P : Int
  C : Int
  deriving DecidableEq, Repr

/-- `particleData/particleProperties.h` l.111 `isospinProj()` (Gell-Mann–Nishijima). -/
def Qn.isospinProj (q : Qn) : Int := 2 * q.charge - (q.baryonNmb + q.strangeness + q.charm + q.beauty)

/-- type of the six-argument coupling test -/
abbrev CgTest := Int → Int → Int → Int → Int → Int → Bool

/-- C++ `%` truncates towards zero; `x % 4 == 0` does not depend on that. -/
def mod4IsZero (x : Int) : Bool := x.tmod 4 == 0

/-- `isobarDecayVertex.cc` l.203-222 `checkMultiplicativeQn`. -/
def checkMultiplicativeQn (m d1 d2 : Int) : Bool := m == d1 * d2

/-- `isobarDecayVertex.cc` l.225-245 `checkAdditiveQn`. -/
def checkAdditiveQn (m d1 d2 : Int) : Bool := m == d1 + d2

/-- `isobarDecayVertex.cc` l.324-326 and the two repetitions for the other particles: `true` when the
C-parity of one particle is *in*consistent. -/
def cInconsistent (p : Qn) : Bool :=
  (p.charge == 0 && p.C != p.G * (if mod4IsZero p.isospin then 1 else -1))
  || (p.charge != 0 && p.C != 0)

/-- `isobarDecayVertex.cc` l.248-345 `checkConsistency`. -/
def checkConsistency (cgNonZero : CgTest) (parent d1 d2 : Qn) (L S : Int) : Bool :=
  let angMomParity : Int := if mod4IsZero L then 1 else -1
  checkMultiplicativeQn parent.G d1.G d2.G
  && parent.P == d1.P * d2.P * angMomParity
  && checkAdditiveQn parent.charge d1.charge d2.charge
  && checkAdditiveQn parent.baryonNmb d1.baryonNmb d2.baryonNmb
  && checkAdditiveQn parent.strangeness d1.strangeness d2.strangeness
  && checkAdditiveQn parent.charm d1.charm d2.charm
  && checkAdditiveQn parent.beauty d1.beauty d2.beauty
  && isEven L
  && Spin.spinStatesCanCouple d1.J d2.J S
  && Spin.spinStatesCanCouple L S parent.J
  && cgNonZero d1.isospin d1.isospinProj d2.isospin d2.isospinProj parent.isospin parent.isospinProj
  && !(cInconsistent d1 || cInconsistent d2 || cInconsistent parent)

end Rpwa.Vertex

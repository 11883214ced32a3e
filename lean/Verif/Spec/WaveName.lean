import Verif.Model.WaveName
import Verif.Spec.FitResult
/-!
# Specification for wave names (C47) -/
namespace Rpwa.Fit

/-- equal up to the parentheses, which wave names replace by underscores. -/
def SameName (a b : Name) : Prop :=
  List.Forall₂ (fun c d => c = d ∨ (c ∈ ['(', ')', '_'] ∧ d ∈ ['(', ')', '_'])) a b

/-- the same isospin, G parity, spin, parity, and C parity. -/
def SameQn (p q : WaveParticle) : Prop := p.isospin = q.isospin ∧ p.G = q.G ∧ p.J = q.J ∧ p.P = q.P ∧ p.C = q.C

/-- two isobars are the same for the purposes of a wave name: the same kind of mass dependence and the same particle; for flat
and binned mass dependences the same quantum numbers (and bin borders as printed); a missing mass dependence is the
relativistic Breit-Wigner. -/
inductive SameIsobar : MassDep → WaveParticle → MassDep → WaveParticle → Prop
  | bw {d d' p p'} : d = .none ∨ d = .relativisticBreitWigner → d' = .none ∨ d' = .relativisticBreitWigner →
      SameName p.name p'.name → SameIsobar d p d' p'
  | flat {p p'} : SameQn p p' → SameIsobar .flat p .flat p'
  | binned {lo hi p p'} : SameQn p p' → SameIsobar (.binned lo hi) p (.binned lo hi) p'
  | glass {t t' p p'} : SameName t t' → SameName p.name p'.name → SameIsobar (.glass t) p (.glass t') p'
  | palano {m p p'} : SameName p.name p'.name → SameIsobar (.palano m) p (.palano m) p'
  | plain {d p p'} : SameName p.name p'.name → SameIsobar (.plain d) p (.plain d) p'

/-- the same decay chain with the same orbital angular momenta and spins at every vertex. -/
inductive SameDecay : Decay → Decay → Prop
  | fs {n n'} : SameName n n' → SameDecay (.fs n) (.fs n')
  | iso {p d p' d' L S d1 d2 e1 e2} : SameIsobar d p d' p' → SameDecay d1 e1 → SameDecay d2 e2 →
      SameDecay (.iso p d L S d1 d2) (.iso p' d' L S e1 e2)

/-- the same wave: quantum numbers of X including spin projection and reflectivity, and decay chain. -/
def SameWave (t u : WaveTopology) : Prop :=
  SameQn t.X u.X ∧ t.X.spinProj = u.X.spinProj ∧ t.X.reflectivity = u.X.reflectivity ∧ t.L = u.L ∧ t.S = u.S ∧
  SameDecay t.d1 u.d1 ∧ SameDecay t.d2 u.d2

/-! ### what is required of the names and quantum numbers -/

/-- a character that particle names may contain. -/
def NameChar (c : Char) : Prop := c ∉ ['[', ']', '=', ',', '\\', '|', '{', Char.ofNat 0]

def GoodName (n : Name) : Prop := n ≠ [] ∧ ∀ c ∈ n, NameChar c

/-- characters a stream writes for a number. -/
def NumberText (s : Name) : Prop := ∀ c ∈ s, c.isDigit = true ∨ c ∈ ['.', 'e', '+', '-']

/-- parities are ±1, C and G may be undefined (0). -/
def GoodQn (p : WaveParticle) : Prop := (p.P = 1 ∨ p.P = -1) ∧ (p.G = 0 ∨ p.G = 1 ∨ p.G = -1) ∧ (p.C = 0 ∨ p.C = 1 ∨ p.C = -1)

def GoodMassDep : MassDep → Prop
  | .binned lo hi => NumberText lo ∧ NumberText hi
  | .glass tag => ∀ c ∈ tag, NameChar c
  | .palano m => NumberText m
  | _ => True

def GoodDecay : Decay → Prop
  | .fs n => GoodName n
  | .iso p d _ _ d1 d2 => GoodName p.name ∧ GoodQn p ∧ GoodMassDep d ∧ GoodDecay d1 ∧ GoodDecay d2

def GoodTopology (t : WaveTopology) : Prop :=
  GoodQn t.X ∧ (t.X.reflectivity = 0 ∨ t.X.reflectivity = 1 ∨ t.X.reflectivity = -1) ∧ GoodDecay t.d1 ∧ GoodDecay t.d2

end Rpwa.Fit

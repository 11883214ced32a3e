import Verif.Model.SpinTensor
/-!
# Model of the relativistic helicity-coupling amplitudes of a decay channel (CalcAmpl)

`relativisticAmpCorrections/TJSS.{h,cc}`, `TFhh.{h,cc}` (constructor from LS amplitudes), `TLSContrib.{h,cc}` (constructor from an LS
amplitude). Not modelled: output, the amplitudes for identical particles and the nonrelativistic limit that `CalcAmpl` prints at the
end, overflow of `long`.
-/
namespace Rpwa.SpinTensor
open Fraction CgBox

/-- TJSS.h l.16-30: arguments of the constructor. -/
structure Channel where
  J : Nat
  etaJ : Int
  S1 : Nat
  eta1 : Int
  S2 : Nat
  eta2 : Int

/-- arguments of the constructor of an LS amplitude that vary within a channel (TJSS.cc l.223-236; `cPhiEps` and `cChiEps` are
`cPsiPhi - cPhiOme` and `cPsiChi - cChiOme`). -/
structure Contraction where
  L : Int
  S : Int
  delta : Int
  cPsiInt : Int
  cChiPhi : Int
  cPsiChi : Int
  cPsiPhi : Int
  cChiOme : Int
  cPhiOme : Int
deriving DecidableEq

/-- `for (long x = lo; x <= hi; x++)` -/
def upTo (lo hi : Int) : List Int := (List.range (hi - lo + 1).toNat).map fun k : Nat => lo + (k : Int)

namespace Channel
variable (c : Channel)

/-- TJSS.cc l.27-28 -/
def sMin : Int := |(c.S1 : Int) - c.S2|
def sMax : Int := c.S1 + c.S2

/-- TJSS.cc l.42-49 -/
def lMax : Int := c.J + c.sMax
def lMin : Int := (upTo c.sMin c.sMax).foldl (fun m s => if |(c.J : Int) - s| < m then |(c.J : Int) - s| else m) c.lMax

/-- TJSS.cc l.56: the first value of `testL` -/
def lStart : Int := if c.etaJ * c.eta1 * c.eta2 < 0 then 1 else 0

/-- TJSS.cc l.57-64: number of passes of the loop -/
def lSteps : Nat := ((c.lMax - c.lStart) / 2 + 1).toNat

/-- TJSS.cc l.55-64: `fL` -/
def ls : List Int := ((List.range c.lSteps).map fun k : Nat => c.lStart + 2 * (k : Int)).filter fun l => c.lMin ≤ l

/-- TJSS.cc l.69: with the value of `testL` after the loop -/
def even : Bool := ((c.S1 : Int) + c.S2 + (c.lStart + 2 * c.lSteps) - c.J).tmod 2 = 0

/-- TJSS.cc l.125-128 -/
def indexContractions (L : Int) : Int :=
  let totalRank := (c.S1 : Int) + c.S2 + L + c.J
  if c.even then totalRank.tdiv 2 else (totalRank - 3).tdiv 2

/-- TJSS.cc l.332-396 `checkSelectionRules`: true = leave out. -/
def excluded (L psiInt psiChi chiPhi psiPhi : Int) : Bool :=
  if psiInt + psiChi + chiPhi + psiPhi ≠ c.indexContractions L then true
  else if c.even then
    if 2 * psiInt + psiChi + psiPhi ≠ (c.S1 : Int) + c.S2 then true
    else if psiChi + chiPhi ≠ L then true
    else if chiPhi + psiPhi ≠ c.J then true
    else false
  else
    if L - psiChi - chiPhi > 1 then true
    else if (c.J : Int) - psiPhi - chiPhi > 1 then true
    else false

/-- TJSS.cc l.399-440 `getContractionRank`: `none` = false is returned. -/
def rank (psiInt psiChi psiPhi : Int) : Option (Int × Int) :=
  let rOme := (c.S1 : Int) - psiInt
  let rEps := (c.S2 : Int) - psiInt
  if c.even then some (rOme, rEps)
  else
    let rest := (c.S1 : Int) + c.S2 - 2 * psiInt - psiChi - psiPhi
    if rest < 0 ∨ rest > 2 then none
    else if rest = 2 then if rOme > 0 ∧ rEps > 0 then some (rOme - 1, rEps - 1) else none
    else some (rOme, rEps)

/-- TJSS.cc l.134-240: the contractions for one `L` and `S` in the order of the loops. -/
def contractions (L S : Int) : List Contraction :=
  (upTo 0 (min (c.S1 : Int) c.S2)).flatMap fun psiInt =>
  (upTo 0 (min (c.J : Int) L)).flatMap fun chiPhi =>
  (upTo 0 (min c.sMax L)).flatMap fun psiChi =>
  (upTo 0 (min c.sMax c.J)).flatMap fun psiPhi =>
    if c.excluded L psiInt psiChi chiPhi psiPhi then []
    else match c.rank psiInt psiChi psiPhi with
      | none => []
      | some r =>
        (upTo 0 r.1).flatMap fun chiOme => (upTo 0 (r.1 - chiOme)).flatMap fun phiOme =>
          if psiPhi - phiOme < 0 ∨ psiChi - chiOme < 0 ∨ (psiPhi - phiOme) + (psiChi - chiOme) > r.2 then []
          else (upTo 0 (min S c.J)).map fun delta => ⟨L, S, delta, psiInt, chiPhi, psiChi, psiPhi, chiOme, phiOme⟩

/-- TJSS.cc l.101-115: the values of `S` for one `L`. -/
def spins (L : Int) : List Int := upTo (max |(c.J : Int) - L| c.sMin) (min (c.J + L) c.sMax)

/-- arguments of the constructor of the LS amplitude -/
def args (x : Contraction) : Scheme :=
  ⟨c.S1, c.S2, x.L.toNat, c.J, x.delta, x.S, x.cPsiInt, x.cPsiChi, x.cChiPhi, x.cPsiPhi, x.cPhiOme, x.cChiOme⟩

end Channel

/-- an LS amplitude with its number -/
structure LsAmpl where
  con : Contraction
  num : Int
  terms : List Term

/-- TLSAmpl.cc l.146-172 `CheckContraction`. -/
def sameContraction (a b : Contraction) : Bool :=
  a.L == b.L && a.S == b.S && a.cPsiInt == b.cPsiInt && a.cPsiChi == b.cPsiChi && a.cChiPhi == b.cChiPhi &&
  a.cPsiPhi == b.cPsiPhi && a.cPhiOme == b.cPhiOme && a.cChiOme == b.cChiOme

/-- TJSS.cc l.198-250: one LS amplitude; the state is `_LSAmplitudes` and `MaxContractionNumber`. -/
noncomputable def addAmpl (c : Channel) (s : List LsAmpl × Int) (x : Contraction) : Outcome (List LsAmpl × Int) := do
  let num := match s.1.find? fun a => sameContraction a.con x with
    | some a => a.num
    | none => s.2 + 1
  let ts ← lsAmpl (c.args x)
  if ts ≠ [] then return (s.1 ++ [⟨x, num, ts⟩], if num > s.2 then s.2 + 1 else s.2)
  else return s

/-- TJSS.cc l.84-256: `_LSAmplitudes`; `MaxContractionNumber` starts at zero for every `L` and `S` (l.133). -/
noncomputable def lsAmpls (c : Channel) : Outcome (List LsAmpl) :=
  (c.ls.flatMap fun L => (c.spins L).map fun S => (L, S)).foldlM (fun as x => do
    let r ← (c.contractions x.1 x.2).foldlM (addAmpl c) (as, 0)
    return r.1) []

/-- TLSContrib.h l.12-37, l.71-85. A term is prefactor, exponent of `γ_s`, exponent of `γ_σ`. -/
structure Contrib where
  con : Contraction
  num : Int
  delta : Int
  spinCG : Frac
  norm : Frac
  terms : List (Frac × Int × Int)
  pure : Bool

/-- `SumSignedRoots` with its result taken -/
noncomputable def sumRoots (a b : Frac) : Outcome Frac := do
  match ← sumSignedRoots a b with
  | some f => .ok f
  | none => .ub

/-- TLSContrib.cc l.32-91: constructor from an LS amplitude. -/
noncomputable def contrib (c : Channel) (a : LsAmpl) (delta : Int) (scfac : Frac) : Outcome Contrib := do
  let rev : Bool := delta < 0 ∧ (a.con.L + a.con.S - c.J).tmod 2 ≠ 0
  let terms := a.terms.map fun t => ((if rev then flipSign (mul scfac t.pre) else mul scfac t.pre), t.gamS, t.gamSig)
  let norm ← terms.foldlM (fun n t => sumRoots n t.1) zero
  if equal norm zero then return ⟨a.con, a.num, delta, scfac, default1, terms, true⟩
  else
    let inv := (invert norm).2
    return ⟨a.con, a.num, delta, scfac, norm, terms.map fun t => (mul t.1 inv, t.2.1, t.2.2), false⟩

/-- TFhh.cc l.21-57: constructor from the LS amplitudes; the contributions. -/
noncomputable def fhh (c : Channel) (as : List LsAmpl) (lambda nu : Int) : Outcome (List Contrib) := do
  let r ← (as.filter fun a => a.con.delta = lambda - nu ∨ a.con.delta = -(lambda - nu)).mapM fun a => do
    let cg ← clebschGordan (2 * a.con.S) (2 * (c.S1 : Int)) (2 * (c.S2 : Int))
    let f ← rd cg (cgIndex c.S1 lambda c.S2 (-nu))
    if equal f zero then return none
    else do let x ← contrib c a (lambda - nu) f; return some x
  return r.filterMap id

/-- a helicity-coupling amplitude -/
structure Fhh where
  lambda : Int
  nu : Int
  contribs : List Contrib

/-- TJSS.cc l.270-287: `_FhhAmpl`. -/
noncomputable def fhhs (c : Channel) (as : List LsAmpl) : Outcome (List Fhh) := do
  let r ← ((upTo 0 c.S1).flatMap fun l => ((upTo (-(c.S2 : Int)) c.S2).filter fun n => ¬ (l = 0 ∧ n < 0)).map fun n => (l, n)).mapM fun x => do
    let cs ← fhh c as x.1 x.2
    return (⟨x.1, x.2, cs⟩ : Fhh)
  return r.filter fun f => f.contribs ≠ []

/-- TJSS.cc l.15-330 `CalcAmpl` up to the amplitudes for identical particles. -/
noncomputable def calcAmpl (c : Channel) : Outcome (List LsAmpl × List Fhh) := do
  let as ← lsAmpls c
  let fs ← fhhs c as
  return (as, fs)

end Rpwa.SpinTensor

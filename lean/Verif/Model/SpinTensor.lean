import Verif.Model.CgBox
/-!
Model of `relativisticAmpCorrections/TSpinWaveFunction.{h,cc}`, `TJwfTensor.{h,cc}` and `TLSAmpl.{h,cc}`: spin wave
functions as sums over sequences of helicities, their coupling, and the contraction to scalar amplitudes.

Simplifications: `long` is `Int`, `size_t` is `Nat` where it cannot wrap and otherwise an access outside a vector is
`Outcome.ub`; `_mi[_J * pzm + i]` is element `i` of row `pzm`; a naked `throw;` is `Outcome.terminate`; debug output is left
out. The table of Clebsch-Gordan coefficients is calculated where `GetCG` is called (the box returns the same table, C79).
-/
namespace Rpwa.SpinTensor
open Fraction CgBox

/-- a constructor of `TFracNum` -/
def opt (o : Option Frac) : Outcome Frac := match o with | some f => .ok f | none => .ub

/-- TFracNum.cc l.767-774 `am0_to_J` for `-J ≤ m ≤ J`. -/
noncomputable def am0 (J : Nat) (m : Int) (m0 : Nat) : Outcome Frac := do
  let fac1 ← opt (ofFactorials (J + m).toNat (2 * J))
  let fac2 ← opt (ofFactorials (J - m).toNat 1)
  return mul (mul (ofExponents [m0] [] 1) fac1) fac2

/-- TSpinWaveFunction.h l.19-29: a wave function; `terms[pzm]` holds `_mi[_J * pzm + i]` and `_M_and_coeff[pzm]`. -/
structure Wave where
  J : Nat
  type : Char
  terms : List (List Int × Int × Frac)

/-- TSpinWaveFunction.cc l.31-43: the helicities of one term, from `i - 1` down; `pot3[i] = 3^i`. -/
def digits : Nat → Int → List Int
  | 0, _ => []
  | i + 1, rest =>
    let ipot3 := rest.tdiv (3 ^ i)
    digits i (rest - ipot3 * 3 ^ i) ++ [ipot3 - 1]

/-- TSpinWaveFunction.cc l.57-71: number of helicities that are zero. -/
def zeros (mi : List Int) : Nat := mi.countP (· == 0)

/-- TSpinWaveFunction.cc l.53-83: one pass over one term. -/
noncomputable def setCoeff (J : Nat) (type : Char) (MM : Int) (x : List Int × Int × Frac) : Outcome (List Int × Int × Frac) :=
  if ((type = 's' ∨ type = 'c') ∧ x.2.1 = MM) ∨ (type = 'l' ∧ x.2.1 = MM ∧ MM = 0) then do
    let m0 := zeros x.1
    let c := x.2.2
    let c ← if type = 's' ∨ type = 'c' then am0 J MM m0 else .ok c
    let c ← if type = 'l' then opt (cm0SubEll2 J m0) else .ok c
    return (x.1, x.2.1, c)
  else .ok x

/-- TSpinWaveFunction.cc l.15-86: constructor. -/
noncomputable def mkWave (J : Nat) (type : Char) : Outcome Wave := do
  let terms := (List.range (3 ^ J)).map fun pzm : Nat =>
    let mi := digits J pzm
    (mi, mi.foldr (· + ·) 0, zero)
  let terms ← ((List.range (2 * J + 1)).map fun k : Nat => (J : Int) - k).foldlM (fun t MM => t.mapM (setCoeff J type MM)) terms
  return ⟨J, type, terms⟩

/-- TJwfTensor.h l.9-66: a term. -/
structure Term where
  ome : List Int
  eps : List Int
  chi : List Int
  phi : List Int
  gamS : Int
  gamSig : Int
  pre : Frac

/-- TJwfTensor.cc l.13-38: constructor from one set of helicities. -/
def mkTerm (name : Char) (field : List Int) (pre : Frac) : Term :=
  ⟨if name = 'o' then field else [], if name = 'e' then field else [], if name = 'c' then field else [],
    if name = 'p' then field else [], 0, 0, pre⟩

/-- TJwfTensor.cc l.282-325 `Multiply`. -/
def multiply (t : Term) (name : Char) (field : List Int) (pre : Frac) : Outcome Term :=
  let t := { t with pre := mul t.pre pre }
  if name = 'o' then if ¬ t.ome = [] then .terminate else .ok { t with ome := field }
  else if name = 'e' then if ¬ t.eps = [] then .terminate else .ok { t with eps := field }
  else if name = 'c' then if ¬ t.chi = [] then .terminate else .ok { t with chi := field }
  else if name = 'p' then if ¬ t.phi = [] then .terminate else .ok { t with phi := field }
  else .ok t

/-- `IsNonZero`, TJwfTensor.h l.43. -/
def isNonZero (t : Term) : Bool := !(equal t.pre zero)

/-- TSpinWaveFunction.cc l.88-105 `GetTensorSum`. -/
def tensorSum (w : Wave) (name : Char) (delta : Int) : List Term :=
  w.terms.reverse.filterMap fun x =>
    if x.2.1 = delta ∧ ¬ equal x.2.2 zero = true then some (mkTerm name x.1 x.2.2) else none

/-- TSpinWaveFunction.cc l.107-177 `GetSpinCoupledTensorSum`. The loop over `MM2` ends at `-_J` of the first particle. -/
noncomputable def coupledSum (w E : Wave) (delta S : Int) : Outcome (List Term) := do
  if ¬ (w.type = 's' ∧ E.type = 's') then .terminate
  else if 2 * S < |2 * (w.J : Int) - 2 * (E.J : Int)| ∨ 2 * S > 2 * (w.J : Int) + 2 * (E.J : Int) then .terminate
  else
    let cg ← clebschGordan (2 * S) (2 * (w.J : Int)) (2 * (E.J : Int))
    let pairs := (loopFrom w.J (-(w.J : Int))).flatMap fun MM1 => w.terms.reverse.flatMap fun x1 =>
      if x1.2.1 = MM1 ∧ ¬ equal x1.2.2 zero = true then
        (loopFrom E.J (-(w.J : Int))).flatMap fun MM2 => E.terms.reverse.filterMap fun x2 =>
          if (x2.2.1 = MM2 ∧ ¬ equal x2.2.2 zero = true) ∧ MM1 + MM2 = delta then some (x1, x2, MM1, MM2) else none
      else []
    pairs.mapM fun x => do
      let c ← rd cg (cgIndex w.J x.2.2.1 E.J x.2.2.2)
      multiply (mkTerm 'o' x.1.1 x.1.2.2) 'e' x.2.1.1 (mul c x.2.1.2.2)
where
  /-- `for (long x = hi; x >= lo; x--)` -/
  loopFrom (hi : Nat) (lo : Int) : List Int := (List.range ((hi : Int) - lo + 1).toNat).map fun k : Nat => (hi : Int) - k

/-- one pass of the loop TJwfTensor.cc l.331-346 (`SpinInnerContraction`); the state is the term and `res`. -/
noncomputable def innerStep (s : Term × Int) : Outcome (Term × Int) :=
  match s.1.ome.getLast?, s.1.eps.getLast? with
  | some o, some e =>
    let t := { s.1 with ome := s.1.ome.dropLast, eps := s.1.eps.dropLast }
    if (o = 1 ∧ e = -1) ∨ (o = -1 ∧ e = 1) then .ok ({ t with pre := flipSign t.pre }, 1)
    else if o = 0 ∧ e = 0 then .ok ({ t with gamS := t.gamS + 1, gamSig := t.gamSig + 1 }, 1)
    else .ok (t, 0)
  | _, _ => .ub

/-- `body` executed `n` times -/
def times {α : Type} (f : α → Outcome α) : Nat → α → Outcome α
  | 0, x => .ok x
  | n + 1, x => do let y ← f x; times f n y

/-- TJwfTensor.cc l.327-350 `SpinInnerContraction` of a term: the term and the returned number. The vectors are shortened at
once instead of at the end. -/
noncomputable def innerTerm (t : Term) (n : Int) : Outcome (Term × Int) := times innerStep n.toNat (t, 0)

/-- TJwfTensor.cc l.496-505 `SpinInnerContraction` of a sum. -/
noncomputable def innerSum (ts : List Term) (n : Int) : Outcome (List Term) := do
  let r ← ts.mapM fun t => innerTerm t n
  return (r.filter fun x => x.2 ≠ 0).map (·.1)

/-- state of the loop TJwfTensor.cc l.62-100: indices that are left (of `S`: ome, eps; of `L`: the contracted kind), factors,
and how many indices are still to be taken from ome. -/
structure LsState where
  ome : List Int
  eps : List Int
  cp : List Int
  gamS : Int
  gamSig : Int
  pre : Frac
  oShare : Int

/-- one pass of the loop TJwfTensor.cc l.62-100; `none` = `return` with prefactor zero. -/
noncomputable def lsStep (conType : Char) (s : LsState) : Outcome (Option LsState) :=
  match s.cp.getLast? with
  | none => .ub
  | some cp =>
    match (if s.oShare ≠ 0 then s.ome.getLast? else s.eps.getLast?) with
    | none => .ub
    | some oe =>
      let s' := { s with cp := s.cp.dropLast }
      let s' := if s.oShare ≠ 0 then { s' with ome := s.ome.dropLast } else { s' with eps := s.eps.dropLast }
      if conType = 'c' ∧ ((oe = 1 ∧ cp = -1) ∨ (oe = -1 ∧ cp = 1)) then
        .ok (some { s' with pre := flipSign s.pre, oShare := if s.oShare ≠ 0 then s.oShare - 1 else s.oShare })
      else if conType = 'p' ∧ ((oe = 1 ∧ cp = 1) ∨ (oe = -1 ∧ cp = -1)) then
        .ok (some { s' with oShare := if s.oShare ≠ 0 then s.oShare - 1 else s.oShare })
      else if oe = 0 ∧ cp = 0 then
        if s.oShare ≠ 0 then .ok (some { s' with gamS := s.gamS + 1, oShare := s.oShare - 1 })
        else .ok (some { s' with gamSig := s.gamSig + 1 })
      else .ok none

/-- the loop TJwfTensor.cc l.62-100 -/
noncomputable def lsLoop (conType : Char) : Nat → LsState → Outcome (Option LsState)
  | 0, s => .ok (some s)
  | n + 1, s => do
    match ← lsStep conType s with
    | none => .ok none
    | some s' => lsLoop conType n s'

/-- TJwfTensor.cc l.40-127: constructor from two terms. The exponents of a term with prefactor zero are not updated (such terms
are dropped by all callers). In the second case `S` has indices of the contracted kind left: the
access `L._chi_pzm[rChi - 1]` or `L._phi_pzm[rPhi - 1]` is outside the vector. -/
noncomputable def lsTerm (S L : Term) (contractions oShare : Int) (conType : Char) : Outcome Term :=
  let pre := mul S.pre L.pre
  let gamS := S.gamS + L.gamS
  let gamSig := S.gamSig + L.gamSig
  if ¬ L.ome = [] ∨ ¬ L.eps = [] then .ok ⟨[], [], [], [], gamS, gamSig, pre⟩
  else if 0 < contractions ∧ ¬ (if conType = 'c' then S.chi else S.phi) = [] then .ub
  else do
    let cp := if conType = 'c' then L.chi else L.phi
    match ← lsLoop conType contractions.toNat ⟨S.ome, S.eps, cp, gamS, gamSig, pre, oShare⟩ with
    | none => .ok ⟨[], [], [], [], gamS, gamSig, zero⟩
    | some s =>
      .ok ⟨s.ome, s.eps, if conType = 'c' then s.cp ++ S.chi else L.chi ++ S.chi,
        if conType = 'c' then L.phi ++ S.phi else s.cp ++ S.phi, s.gamS, s.gamSig, s.pre⟩

/-- TJwfTensor.cc l.507-525 `LSContraction`. -/
noncomputable def lsSum (ts Ls : List Term) (contr co : Int) (conType : Char) : Outcome (List Term) := do
  let r ← (ts.flatMap fun t => Ls.map fun l => (t, l)).mapM fun x => lsTerm x.1 x.2 contr co conType
  return r.filter isNonZero

/-- loop TJwfTensor.cc l.136-146: contraction of chi with phi; `false` = `return 0` with prefactor zero (the pair that
differs is not removed). -/
def ljLoop : Nat → Term → Outcome (Term × Bool)
  | 0, t => .ok (t, true)
  | n + 1, t =>
    match t.chi.getLast?, t.phi.getLast? with
    | some c, some p =>
      if c ≠ p then .ok ({ t with pre := zero }, false)
      else ljLoop n { t with chi := t.chi.dropLast, phi := t.phi.dropLast }
    | _, _ => .ub

/-- `flip`: 1 = nothing, -1 = `FlipSign`, 0 = prefactor zero -/
noncomputable def signed (f : Frac) (flip : Int) : Frac := if flip = 0 then zero else if flip = 1 then f else flipSign f

/-- TJwfTensor.cc l.172-190 and l.191-212: spin with orbital and total angular momentum; sign and exponent. -/
def epsA (s c p : Int) : Int × Int :=
  if s = 1 ∧ c = -1 ∧ p = 0 then (1, 0)
  else if s = -1 ∧ c = 1 ∧ p = 0 then (-1, 0)
  else if s = 1 ∧ c = 0 ∧ p = 1 then (1, 0)
  else if s = -1 ∧ c = 0 ∧ p = -1 then (-1, 0)
  else if s = 0 ∧ c = 1 ∧ p = 1 then (-1, 1)
  else if s = 0 ∧ c = -1 ∧ p = -1 then (1, 1)
  else (0, 0)

/-- TJwfTensor.cc l.213-235: two spins and total angular momentum; sign and exponents. -/
def epsP (o e p : Int) : Int × Int × Int :=
  if o = 1 ∧ e = -1 ∧ p = 0 then (1, 0, 0)
  else if o = -1 ∧ e = 1 ∧ p = 0 then (-1, 0, 0)
  else if o = 1 ∧ e = 0 ∧ p = 1 then (1, 0, 1)
  else if o = -1 ∧ e = 0 ∧ p = -1 then (-1, 0, 1)
  else if o = 0 ∧ e = 1 ∧ p = 1 then (-1, 1, 0)
  else if o = 0 ∧ e = -1 ∧ p = -1 then (1, 1, 0)
  else (0, 0, 0)

/-- TJwfTensor.cc l.236-258: two spins and orbital angular momentum; sign and exponents. -/
def epsC (o e c : Int) : Int × Int × Int :=
  if o = 1 ∧ e = -1 ∧ c = 0 then (1, 0, 0)
  else if o = -1 ∧ e = 1 ∧ c = 0 then (-1, 0, 0)
  else if o = 1 ∧ e = 0 ∧ c = -1 then (-1, 0, 1)
  else if o = -1 ∧ e = 0 ∧ c = 1 then (1, 0, 1)
  else if o = 0 ∧ e = 1 ∧ c = -1 then (1, 1, 0)
  else if o = 0 ∧ e = -1 ∧ c = 1 then (-1, 1, 0)
  else (0, 0, 0)

/-- `-100` unless there is exactly one index, TJwfTensor.cc l.157-172. -/
def single (v : List Int) : Int := match v with | [x] => x | _ => -100

/-- `r--` on a `size_t` followed by `shrinkVectors` (TJwfTensor.cc l.462-481): an index less; from zero the number wraps
around and `shrinkVectors` ends the program. -/
def shrink (v : List Int) : Outcome (List Int) := if v = [] then .terminate else .ok v.dropLast

/-- TJwfTensor.cc l.129-280 `LJContraction` of a term. -/
noncomputable def ljTerm (t : Term) (nCon : Int) (even : Bool) : Outcome Term := do
  let r ← ljLoop nCon.toNat t
  let t := r.1
  if r.2 = false then .ok t
  else if even then
    if ¬ t.ome = [] ∧ ¬ t.eps = [] ∧ ¬ t.chi = [] ∧ ¬ t.phi = [] then .terminate else .ok t
  else if t.ome.length + t.eps.length + t.chi.length + t.phi.length ≠ 3 then .terminate
  else if t.ome = [] then do
    let eps ← shrink t.eps; let chi ← shrink t.chi; let phi ← shrink t.phi
    let x := epsA (single t.eps) (single t.chi) (single t.phi)
    .ok { t with eps := eps, chi := chi, phi := phi, pre := signed t.pre x.1, gamSig := t.gamSig + x.2 }
  else if t.eps = [] then do
    let ome ← shrink t.ome; let chi ← shrink t.chi; let phi ← shrink t.phi
    let x := epsA (single t.ome) (single t.chi) (single t.phi)
    .ok { t with ome := ome, chi := chi, phi := phi, pre := signed t.pre x.1, gamS := t.gamS + x.2 }
  else if t.chi = [] then do
    let ome ← shrink t.ome; let eps ← shrink t.eps; let phi ← shrink t.phi
    let x := epsP (single t.ome) (single t.eps) (single t.phi)
    .ok { t with ome := ome, eps := eps, phi := phi, pre := signed t.pre x.1, gamS := t.gamS + x.2.1, gamSig := t.gamSig + x.2.2 }
  else if t.phi = [] then do
    let ome ← shrink t.ome; let eps ← shrink t.eps; let chi ← shrink t.chi
    let x := epsC (single t.ome) (single t.eps) (single t.chi)
    .ok { t with ome := ome, eps := eps, chi := chi, pre := signed t.pre x.1, gamS := t.gamS + x.2.1, gamSig := t.gamSig + x.2.2 }
  else .terminate

/-- TJwfTensor.cc l.352-364 `SameStructure`: the numbers of indices are compared, not the indices. -/
def sameStructure (a b : Term) : Bool :=
  a.ome.length == b.ome.length && a.eps.length == b.eps.length && a.chi.length == b.chi.length &&
  a.phi.length == b.phi.length && a.gamS == b.gamS && a.gamSig == b.gamSig

/-- TJwfTensor.cc l.366-372 `AddTwoTerms`. -/
noncomputable def addTwo (a b : Term) : Outcome Term :=
  if sameStructure a b then do
    match ← sumSignedRoots a.pre b.pre with
    | some f => .ok { a with pre := f }
    | none => .ub
  else .terminate

/-- the loop TJwfTensor.cc l.533-546: add a term to the first term of the sum with the same structure. -/
noncomputable def addTerm (tls : List Term) (t : Term) : Outcome (List Term) :=
  match tls with
  | [] => .ok [t]
  | x :: xs =>
    if sameStructure t x then do let y ← addTwo x t; return y :: xs
    else do let ys ← addTerm xs t; return x :: ys

/-- TJwfTensor.cc l.527-555 `LJContraction` of a sum, `removeZeroTerms`. -/
noncomputable def ljSum (ts : List Term) (cChiPhi : Int) (even : Bool) : Outcome (List Term) := do
  let ts ← ts.mapM fun t => ljTerm t cChiPhi even
  let tls ← ts.foldlM addTerm []
  return tls.filter isNonZero

/-- TLSAmpl.cc l.12-26: arguments of the constructor (the contraction number is only stored). -/
structure Scheme where
  S1 : Nat
  S2 : Nat
  L : Nat
  J : Nat
  delta : Int
  S : Int
  cPsiInt : Int
  cPsiChi : Int
  cChiPhi : Int
  cPsiPhi : Int
  cPhiOme : Int
  cChiOme : Int

/-- TLSAmpl.cc l.12-141: the terms of the amplitude. `cPhiEps` and `cChiEps` have no effect. -/
noncomputable def lsAmpl (a : Scheme) : Outcome (List Term) := do
  let totalR : Int := a.S1 + a.S2 + a.L + a.J
  let contractions := 2 * (a.cPsiInt + a.cPsiChi + a.cChiPhi + a.cPsiPhi)
  let even : Bool := totalR.tmod 2 = 0
  if (even = true ∧ contractions ≠ totalR) ∨ (even = false ∧ contractions ≠ totalR - 3) then .terminate
  else do
    let w1 ← mkWave a.S1 's'
    let w2 ← mkWave a.S2 's'
    let tss ← coupledSum w1 w2 a.delta a.S
    let tss ← if a.cPsiInt ≠ 0 then innerSum tss a.cPsiInt else .ok tss
    if a.cPsiInt ≠ 0 ∧ tss = [] then .ok []
    else do
      let wl ← mkWave a.L 'l'
      let tsls ← lsSum tss (tensorSum wl 'c' 0) a.cPsiChi a.cChiOme 'c'
      if tsls = [] then .ok []
      else do
        let wj ← mkWave a.J 'c'
        let tslsj ← lsSum tsls (tensorSum wj 'p' a.delta) a.cPsiPhi a.cPhiOme 'p'
        if tslsj = [] then .ok []
        else ljSum tslsj a.cChiPhi even

end Rpwa.SpinTensor

import Verif.Model.Basic
import Mathlib.Data.Nat.Nth
import Mathlib.Data.List.DropRight
import Mathlib.Data.Nat.Prime.Infinite
import Mathlib.Analysis.SpecialFunctions.Pow.Real
/-!
Model of `relativisticAmpCorrections/TFracNum.{h,cc}` (exact fractions as prime exponent vectors).

Simplifications: `long` is unbounded (`Int`/`Nat`, overflow is not modelled); exponents are natural numbers
(the only place where a negative exponent could enter is the internal-representation constructor called with a
negative entry); `double` is `Real`; the prime table (`primeNumbers::primeNumber`, a ROOT file produced by
`generatePrimeNumberCache`) is the mathematical sequence of primes, with no end.  The mutable caches of the *left*
operand are modelled; reading a numerator or denominator of the right operand is modelled by its value, the
filling of the right operand's cache with that same value is not tracked.
-/
namespace Rpwa.Fraction

/-- primeNumbers.cc l.47-76 `primeNumber(index)`. -/
noncomputable def prime (i : Nat) : Nat := Nat.nth Nat.Prime i

/-- TFracNum.h l.113-146: the object. `numC`, `denC`, `valC` are the three caches, `none` = rebuild required. -/
@[ext] structure Frac where
  nom : List Nat
  den : List Nat
  sign : Int
  numC : Option Int
  denC : Option Int
  valC : Option Real

/-- TFracNum.cc l.225-233 `resetAllCaches`. -/
def Frac.reset (f : Frac) : Frac := { f with numC := none, denC := none, valC := none }

/-- TFracNum.cc l.28-42: constructor from the internal representation. -/
def ofExponents (n d : List Nat) (s : Int) : Frac := ⟨n, d, s, none, none, none⟩

/-- TFracNum.h l.28-38: default constructor. -/
def default1 : Frac := ⟨[], [], 1, some 1, some 1, some 1⟩

/-- the statement group `if(i >= v.size()) v.resize(i+1, 0); v[i]++;` (e.g. TFracNum.cc l.140-143). -/
def bump (v : List Nat) (i : Nat) : List Nat :=
  (if i ≥ v.length then v ++ List.replicate (i + 1 - v.length) 0 else v).modify i (· + 1)

/-- inner loop TFracNum.cc l.139-145: `while (rest % prime == 0) {...}`; `none` = the loop does not terminate. -/
def inner (p i rest : Nat) (v : List Nat) : Option (Nat × List Nat) :=
  if rest % p = 0 then inner p i (rest / p) (bump v i) else some (rest, v)
partial_fixpoint

/-- outer loop TFracNum.cc l.137-147: `while (rest != 1) {...}`; `none` = the loop does not terminate. -/
noncomputable def factorLoop (i rest : Nat) (v : List Nat) : Option (List Nat) :=
  if rest = 1 then some v
  else do
    let r ← inner (prime i) i rest v
    factorLoop (i + 1) r.1 r.2
partial_fixpoint

/-- TFracNum.cc l.173-184: cancel common prime powers on the common length. -/
def cancel : List Nat → List Nat → List Nat × List Nat
  | a :: as, b :: bs =>
    let r := cancel as bs
    if a ≠ 0 ∧ b ≠ 0 then
      if b > a then (0 :: r.1, (b - a) :: r.2) else ((a - b) :: r.1, 0 :: r.2)
    else (a :: r.1, b :: r.2)
  | as, bs => (as, bs)

/-- TFracNum.cc l.719-731 `removeZerosFromVector`: drop trailing zeros. -/
def removeZeros (v : List Nat) : List Nat := v.rdropWhile (· = 0)

/-- TFracNum.cc l.92-190: constructor from two integers; `none` = does not terminate. -/
noncomputable def ofInts (inom iden : Int) : Option Frac :=
  if inom = 0 then
    if iden = 0 then some ⟨[], [], -6666, none, none, none⟩
    else some ⟨[], [], 0, none, none, some 0⟩
  else if iden = 0 then some ⟨[], [], -7777, none, none, none⟩
  else
    let s : Int := 1
    let s := if inom < 0 then s * -1 else s
    let inom := if inom < 0 then inom * -1 else inom
    let s := if iden < 0 then s * -1 else s
    let iden := if iden < 0 then iden * -1 else iden
    (factorLoop 0 inom.toNat []).bind fun n =>
    (factorLoop 0 iden.toNat []).bind fun d =>
    let r := cancel n d
    some ⟨removeZeros r.1, removeZeros r.2, s, none, none, none⟩

/-- TFracNum.cc l.67-88: the loop `for (fac = Low+1; fac <= High; fac++)`; `cnt` = remaining iterations. -/
noncomputable def factorialLoop : Nat → Nat → List Nat → Option (List Nat)
  | 0, _, v => some v
  | cnt + 1, fac, v => (factorLoop 0 fac v).bind fun v' => factorialLoop cnt (fac + 1) v'

/-- TFracNum.cc l.45-90: constructor for `N!/D!` (control string "factorial", non-negative arguments). -/
noncomputable def ofFactorials (N D : Nat) : Option Frac :=
  if N = D then some ⟨[], [], 1, none, none, none⟩
  else
    let low := if N > D then D else N
    let high := if N > D then N else D
    (factorialLoop (high - low) (low + 1) []).bind fun v =>
      if N < D then some ⟨[], v, 1, none, none, none⟩ else some ⟨v, [], 1, none, none, none⟩

/-- TFracNum.cc l.734-743 `getNumberFromFactorization`, from prime index `k` on. -/
noncomputable def number (k : Nat) : List Nat → Nat
  | [] => 1
  | e :: es => prime k ^ e * number (k + 1) es

/-- TFracNum.cc l.193-204 `GetNumerator`, returned value. -/
noncomputable def numerator (f : Frac) : Int :=
  match f.numC with
  | some n => n
  | none => if f.sign = 0 then 0 else number 0 f.nom

/-- TFracNum.cc l.207-218 `GetDenominator`, returned value. -/
noncomputable def denominator (f : Frac) : Int :=
  match f.denC with
  | some n => n
  | none => if f.sign = 0 then 1 else number 0 f.den

/-- `GetNumerator()` as state change: fills the cache. -/
noncomputable def getNumerator (f : Frac) : Frac := { f with numC := some (numerator f) }
/-- `GetDenominator()` as state change: fills the cache. -/
noncomputable def getDenominator (f : Frac) : Frac := { f with denC := some (denominator f) }

/-- TFracNum.cc l.221-236 `Dval`, returned value. -/
noncomputable def dval (squareRoot : Bool) (f : Frac) : Real :=
  match f.valC with
  | some v => v
  | none =>
    if f.sign = 0 then 0
    else
      let absVal : Real := (numerator f : Real) / (denominator f : Real)
      let absVal := if squareRoot then Real.sqrt absVal else absVal
      f.sign * absVal

/-- `Dval(squareRoot)` as state change: a rebuild also fills the caches of numerator and denominator. -/
noncomputable def getDval (squareRoot : Bool) (f : Frac) : Frac :=
  match f.valC with
  | some _ => f
  | none =>
    let f' := if f.sign = 0 then f else getDenominator (getNumerator f)
    { f' with valC := some (dval squareRoot f) }

/-- TFracNum.cc l.247-261 `DenomCommonDivisor`: product over the common length of prime^min. -/
noncomputable def denomCommonDivisor (k : Nat) : List Nat → List Nat → Nat
  | a :: as, b :: bs => prime k ^ (if b < a then b else a) * denomCommonDivisor (k + 1) as bs
  | _, _ => 1

/-- TFracNum.cc l.288-332 `Sqrt` (without the debug output): flag and object. -/
noncomputable def sqrt (f : Frac) : Bool × Frac :=
  if f.sign = 0 ∨ numerator f = 0 then (true, if f.sign = 0 then f else getNumerator f)
  else
    let f := getNumerator f
    if f.nom.any (· % 2 ≠ 0) then (false, f)
    else if f.den.any (· % 2 ≠ 0) then (false, f)
    else (true, { f with nom := f.nom.map (· / 2), den := f.den.map (· / 2) }.reset)

/-- TFracNum.cc l.335-341 `FlipSign`. -/
noncomputable def flipSign (f : Frac) : Frac :=
  { f with sign := f.sign * -1, valC := f.valC.map (· * -1) }

/-- TFracNum.cc l.344-356 `Abs`. -/
noncomputable def absF (f : Frac) : Frac :=
  if f.sign = 0 then f
  else { f with sign := 1, numC := f.numC.map abs, valC := f.valC.map abs }

/-- TFracNum.cc l.359-380 `Invert`: flag and object. -/
noncomputable def invert (f : Frac) : Bool × Frac :=
  if f.sign = -7777 then (false, ofExponents [] [] (-6666))
  else if numerator f = 0 then (false, ofExponents [] [] (-7777))
  else (true, { f with nom := f.den, den := f.nom }.reset)

/-- TFracNum.cc l.383-408 `operator==`. -/
def equal (a b : Frac) : Bool :=
  if a.sign = 0 ∧ b.sign = 0 then true
  else if a.sign ≠ b.sign then false
  else if a.nom.length ≠ b.nom.length then false
  else if a.den.length ≠ b.den.length then false
  else a.nom == b.nom && a.den == b.den

/-- TFracNum.cc l.473-479 `operator+=`. -/
noncomputable def add (a b : Frac) : Option Frac :=
  let cdiv : Int := denomCommonDivisor 0 a.den b.den
  let bdc := denominator b / cdiv
  let adc := denominator a / cdiv
  ofInts (a.sign * numerator a * bdc + b.sign * numerator b * adc) (denominator a * bdc)

/-- `if(v.size() < w.size()) v.resize(w.size(), 0); for(i < w.size()) v[i] += w[i];`
(TFracNum.cc l.511-523). -/
def addExp : List Nat → List Nat → List Nat
  | a :: as, b :: bs => (a + b) :: addExp as bs
  | [], bs => bs
  | as, [] => as

/-- `TFracNum::Zero` (TFracNum.cc l.17) as an object. -/
def zero : Frac := ⟨[], [], 0, none, none, some 0⟩

/-- TFracNum.cc l.482-540 `operator*=`. -/
def mul (a b : Frac) : Frac :=
  if a.sign = -6666 ∨ b.sign = -6666 then ofExponents [] [] (-6666)
  else if (a.sign = -7777 ∧ b.sign = 0) ∨ (a.sign = 0 ∧ b.sign = -7777) then ofExponents [] [] (-6666)
  else if a.sign = -7777 ∨ b.sign = -7777 then ofExponents [] [] (-7777)
  else if a.sign * b.sign = 0 then zero
  else
    let r := cancel (addExp a.nom b.nom) (addExp a.den b.den)
    ⟨r.1, r.2, a.sign * b.sign, none, none, none⟩

/-- TFracNum.cc l.264-285 `SumSignedRoots`: `Outcome.terminate` is the naked `throw;`, the inner `Option` is the
termination of the integer constructor used by `+`. -/
noncomputable def sumSignedRoots (a b : Frac) : Outcome (Option Frac) :=
  let mixed := sqrt (mul a b)
  if mixed.1 then
    let flip : Prop := dval false a + dval false b < 0
    let aa := absF (getDval false a)
    let bb := absF (getDval false b)
    .ok ((add aa bb).bind fun s =>
      (ofInts 2 1).bind fun two =>
      (add s (mul two mixed.2)).bind fun res =>
      some (open Classical in if flip then flipSign res else res))
  else .terminate

/-- TFracNum.cc l.759-766 `am0_to_J`. -/
noncomputable def am0ToJ (J m m0 : Nat) : Option Frac :=
  (ofFactorials (J + m) (2 * J)).bind fun f1 =>
  (ofFactorials (J - m) 1).bind fun f2 =>
  some (mul (mul (ofExponents [m0] [] 1) f1) f2)

/-- TFracNum.cc l.769-779 `c_sub_ell`. -/
noncomputable def cSubEll (ell : Nat) : Option Frac :=
  if ell = 0 then ofInts 1 1
  else
    (ofFactorials ell 1).bind fun f1 =>
    (ofFactorials ell (2 * ell)).bind fun f2 =>
    some (mul (mul (ofExponents [ell] [] 1) f1) f2)

/-- TFracNum.cc l.782-792 `cm0_sub_ell` (here `m0 ≥ 0`). -/
noncomputable def cm0SubEll (ell m0 : Nat) : Option Frac :=
  if ell = 0 then ofInts 1 1
  else
    (ofFactorials ell 1).bind fun f1 =>
    (ofFactorials ell (2 * ell)).bind fun f2 =>
    some (mul (mul (ofExponents [(ell + m0) / 2] [] 1) f1) f2)

/-- TFracNum.cc l.795-809 `cm0_sub_ell_2` (here `m0 ≥ 0`). -/
noncomputable def cm0SubEll2 (ell m0 : Nat) : Option Frac :=
  if ell = 0 then ofInts 1 1
  else
    (ofFactorials ell 1).bind fun f1a =>
    (ofFactorials ell 1).bind fun f1b =>
    (ofFactorials ell (2 * ell)).bind fun f2a =>
    (ofFactorials ell (2 * ell)).bind fun f2b =>
    some (mul (mul (mul (mul (ofExponents [ell + m0] [] 1) f1a) f1b) f2a) f2b)

/-- primeNumbers.cc l.127-139 `isPrimeNumber`: trial division by `2 … max(⌊√n⌋, 2)`. -/
def isPrimeNumber (n : Nat) : Bool :=
  if n = 2 then true
  else (List.range' 2 (max (Nat.sqrt n) 2 - 1)).all fun i => n % i ≠ 0

/-- primeNumbers.cc l.19-37 (`while(cacheSize < size) { if(isPrimeNumber(entry)) … ; entry += 2; }`), also the loop
of generatePrimeNumberCache.cc l.62-78: append the next primes to the table until it has `todo` more entries. -/
def extendTable (todo entry : Nat) (table : List Nat) : Option (List Nat) :=
  if todo = 0 then some table
  else if isPrimeNumber entry then extendTable (todo - 1) (entry + 2) (table ++ [entry])
  else extendTable todo (entry + 2) table
partial_fixpoint

end Rpwa.Fraction

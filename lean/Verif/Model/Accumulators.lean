import Mathlib.Algebra.Group.Defs
import Verif.Model.Basic
/-!
# Model of utilities/sumAccumulators.hpp

The sample type is an arbitrary commutative additive monoid (cascaded sum) or group (compensated sum):
exact arithmetic, no rounding.
-/
namespace Rpwa.Acc

/-! ## cascaded sum (lines 68-145) -/

/-- Members of `cascadedSumAccumulator` (lines 141-143). -/
structure Casc (M : Type u) where
  sumNext : Bool
  index : Nat
  partials : List M

/-- Constructor (lines 76-88); `nmbValues` is the announced number of samples (default 1 in the code),
`initial` the optional initial sample (default `sampleT()`). -/
def Casc.new {M : Type u} [Zero M] (nmbValues : Nat) (initial : M) : Casc M :=
  let nmbSums := nmbValues / 2 + (if nmbValues % 2 > 0 then 1 else 0)
  ⟨false, 0, if nmbSums > 0 then (List.replicate nmbSums 0).set 0 initial else []⟩

/-- `operator ()` (lines 92-104). Line 100 resizes to `_partialSumsIndex` elements (truncating or padding
with zeros) when the index is past the end; the accesses `_partialSums[_partialSumsIndex]` are unchecked,
an access past the end is `ub`. -/
def Casc.add {M : Type u} [Add M] [Zero M] (s : Casc M) (x : M) : Outcome (Casc M) :=
  if s.sumNext then
    match s.partials[s.index]? with
    | some v => .ok ⟨!s.sumNext, s.index + 1, s.partials.set s.index (v + x)⟩
    | none => .ub
  else
    let p := if s.index ≥ s.partials.length
      then (s.partials ++ List.replicate (s.index - s.partials.length) 0).take s.index
      else s.partials
    match p[s.index]? with
    | some _ => .ok ⟨!s.sumNext, s.index, p.set s.index x⟩
    | none => .ub

/-- Feeding a sequence of samples. -/
def Casc.addAll {M : Type u} [Add M] [Zero M] (s : Casc M) : List M → Outcome (Casc M)
  | [] => .ok s
  | x :: xs => (s.add x).bind (fun s' => Casc.addAll s' xs)

/-- One in-place summation pass (lines 130-131): `for i = 0 … n-1: sum[i] = sum[2i] + sum[2i+1]`,
as updates of a buffer `Nat → M`. -/
def passLoop {M : Type u} [Add M] (f : Nat → M) : Nat → Nat → Nat → M
  | _, 0 => f
  | i, k + 1 => passLoop (fun j => if j = i then f (2 * i) + f (2 * i + 1) else f j) (i + 1) k

/-- The while loop of lines 128-135; `fuel` bounds the iterations. -/
def whileLoop {M : Type u} [Add M] : Nat → Nat → (Nat → M) → M
  | 0, _, f => f 0 + f 1
  | fuel + 1, newSumSize, f =>
    if newSumSize > 2 then
      let g := passLoop f 0 (newSumSize / 2)
      let g := if newSumSize % 2 > 0
        then (fun j => if j = newSumSize / 2 then g (newSumSize - 1) else g j) else g
      whileLoop fuel ((newSumSize + 1) / 2) g
    else f 0 + f 1

/-- `result` (lines 107-137). -/
def Casc.result {M : Type u} [Add M] [Zero M] (s : Casc M) : M :=
  let p := fun i => s.partials.getD i 0     -- all accesses below are in range
  let size := s.partials.length
  if size = 0 then 0
  else if size = 1 then p 0
  else if size = 2 then p 0 + p 1
  else
    let halfSize := size / 2
    let sum : Nat → M := fun j => if j < halfSize then p (2 * j) + p (2 * j + 1)
      else if j = halfSize then p (size - 1) else 0
    whileLoop size ((size + 1) / 2) sum

/-! ## compensated sum (lines 152-192) -/

/-- Members of `compensatedSumAccumulator` (lines 189-190). -/
structure Kahan (M : Type u) where
  sum : M
  comp : M

/-- Constructor (lines 160-163). -/
def Kahan.new {M : Type u} [Zero M] (initial : M) : Kahan M := ⟨initial, 0⟩

/-- `operator ()` (lines 167-178). -/
def Kahan.add {M : Type u} [Add M] [Sub M] (s : Kahan M) (x : M) : Kahan M :=
  let correctedTerm := x - s.comp
  let newSum := s.sum + correctedTerm
  ⟨newSum, (newSum - s.sum) - correctedTerm⟩

/-- `result` (lines 181-184). -/
def Kahan.result {M : Type u} (s : Kahan M) : M := s.sum

end Rpwa.Acc

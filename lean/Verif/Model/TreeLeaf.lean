import Verif.Model.Basic
import Mathlib.Data.List.Dedup
import Mathlib.Data.Complex.Basic
/-!
# Amplitudes in trees

Models storageFormats/amplitudeTreeLeaf.cc and amplitudeTreeLeaf.h.  Simplifications: numbers are complex numbers without rounding, division by zero
included; printing and the debug flag are omitted; writing to a tree and reading it again keeps the two stored members and rebuilds the map. -/
namespace Rpwa.TreeLeaf

/-- amplitudeTreeLeaf.h:122-124: the members. -/
structure Leaf where
  amps : List ℂ
  labels : List String
  map : String → Option ℕ

/-- amplitudeTreeLeaf.cc:52-59: the constructor. -/
def Leaf.new : Leaf := ⟨[0], [], fun _ => none⟩

/-- amplitudeTreeLeaf.cc:66-72 `clear`. -/
def Leaf.clear (_ : Leaf) : Leaf := ⟨[0], [], fun _ => none⟩

/-- amplitudeTreeLeaf.cc:196-202: the loop of `rebuildSubAmpLabelMap`; `i` is the index of the first label. -/
def buildMap : ℕ → List String → (String → Option ℕ) → (String → Option ℕ)
  | _, [], m => m
  | i, l :: ls, m => buildMap (i + 1) ls (fun x => if x = l then some i else m x)

/-- amplitudeTreeLeaf.cc:196-202 `rebuildSubAmpLabelMap`. -/
def Leaf.rebuild (a : Leaf) : Leaf := { a with map := buildMap 0 a.labels fun _ => none }

/-- `std::vector::resize(n, 0)`. -/
def resize (n : ℕ) (l : List ℂ) : List ℂ := l.take n ++ List.replicate (n - l.length) 0

/-- amplitudeTreeLeaf.cc:155-175 `defineIncohSubAmps`; labels that occur twice end the program. -/
def Leaf.define (ls : List String) (a : Leaf) : Outcome Leaf :=
  if ls.dedup.length < ls.length then .terminate
  else .ok (Leaf.rebuild { a with amps := resize ls.length a.amps, labels := ls })

/-- amplitudeTreeLeaf.h:103-105 `setIncohSubAmp`; indices are not checked. -/
def Leaf.set (z : ℂ) (i : ℕ) (a : Leaf) : Outcome Leaf :=
  if i < a.amps.length then .ok { a with amps := a.amps.set i z } else .ub

/-- amplitudeTreeLeaf.h:89-90 `incohSubAmp(index)`. -/
def Leaf.at (i : ℕ) (a : Leaf) : Outcome ℂ := match a.amps[i]? with
  | some z => .ok z
  | none => .ub

/-- amplitudeTreeLeaf.cc:121-128 `containsIncohSubAmp`. -/
def Leaf.contains (l : String) (a : Leaf) : Bool := (a.map l).isSome

/-- amplitudeTreeLeaf.cc:131-140 `incohSubAmpIndex`. -/
def Leaf.index (l : String) (a : Leaf) : Outcome ℕ := match a.map l with
  | some i => .ok i
  | none => .terminate

/-- amplitudeTreeLeaf.cc:143-152 `incohSubAmpName`. -/
def Leaf.name (i : ℕ) (a : Leaf) : Outcome String := match a.labels[i]? with
  | some l => .ok l
  | none => .terminate

/-- amplitudeTreeLeaf.h:91-92 `incohSubAmp(label)`. -/
def Leaf.atLabel (l : String) (a : Leaf) : Outcome ℂ := do
  let i ← a.index l
  a.at i

/-- amplitudeTreeLeaf.cc:97-98, 113-114: the loop over the sub-amplitudes; `i` is the index of the first. -/
def combine (op : ℂ → ℂ → ℂ) (b : Leaf) : ℕ → List ℂ → Outcome (List ℂ)
  | _, [] => .ok []
  | i, z :: zs => do
    let w ← b.at i
    let rest ← combine op b (i + 1) zs
    .ok (op z w :: rest)

/-- amplitudeTreeLeaf.cc:87-100 `operator +=`. -/
noncomputable def Leaf.add (b a : Leaf) : Outcome Leaf :=
  if a.labels ≠ b.labels then .terminate
  else do
    let l ← combine (fun x y => x + y) b 0 a.amps
    .ok { a with amps := l }

/-- amplitudeTreeLeaf.cc:103-116 `operator -=`. -/
noncomputable def Leaf.sub (b a : Leaf) : Outcome Leaf :=
  if a.labels ≠ b.labels then .terminate
  else do
    let l ← combine (fun x y => x - y) b 0 a.amps
    .ok { a with amps := l }

/-- amplitudeTreeLeaf.h:160-167 `operator *=`. -/
noncomputable def Leaf.mul (c : ℂ) (a : Leaf) : Leaf := { a with amps := a.amps.map (· * c) }

/-- amplitudeTreeLeaf.h:170-178 `operator /=`. -/
noncomputable def Leaf.div (c : ℂ) (a : Leaf) : Leaf := { a with amps := a.amps.map (· / c) }

/-- written to a tree and read from it: the map is not stored (amplitudeTreeLeaf.h:124) and rebuilt (storageFormats/linkdef.h:76-79). -/
def Leaf.stored (a : Leaf) : Leaf := Leaf.rebuild ⟨a.amps, a.labels, fun _ => none⟩

open Classical in
/-- amplitudeTreeLeaf.h:140-142: the loop of `operator ==`. -/
noncomputable def equalLoop (b : Leaf) : ℕ → List ℂ → Outcome Bool
  | _, [] => .ok true
  | i, z :: zs => do
    let w ← b.at i
    if z ≠ w then .ok false else equalLoop b (i + 1) zs

/-- amplitudeTreeLeaf.h:132-144 `operator ==`; the number of sub-amplitudes of the left side is compared with itself. -/
noncomputable def Leaf.equal (a b : Leaf) : Outcome Bool :=
  if a.amps.length ≠ a.amps.length then .ok false else equalLoop b 0 a.amps

/-- amplitudeTreeLeaf.cc:76-84 `operator =`. -/
def Leaf.assign (b _a : Leaf) : Leaf := b

end Rpwa.TreeLeaf

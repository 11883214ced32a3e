import Verif.Model.Basic
import Mathlib.Data.Nat.Notation
import Mathlib.Order.Lattice
import Mathlib.Data.Nat.Basic
/-!
# Combining the arrays of several bins

Models the array functions of resonanceFit/resonanceFitHelper.h.  Simplifications: `boost::multi_array` is its shape and a function from indices to elements;
its `resize` assigns the elements in the overlap to default elements (boost/multi_array.hpp); an index out of range is undefined; matrices are
sizes and entries, their assignment does nothing for different sizes (TMatrixT reports an error). -/
namespace Rpwa.Arrays

/-- `boost::multi_array`. -/
structure Arr (T : Type) where
  shape : List ℕ
  elem : List ℕ → T

/-- indices within a shape. -/
def inRange : List ℕ → List ℕ → Bool
  | [], [] => true
  | i :: is, d :: ds => decide (i < d) && inRange is ds
  | _, _ => false

/-- access to an element. -/
def Arr.at {T : Type} (a : Arr T) (x : List ℕ) : Outcome T := if inRange x a.shape then .ok (a.elem x) else .ub

/-- an element is replaced. -/
def Arr.put {T : Type} (a : Arr T) (x : List ℕ) (v : T) : Outcome (Arr T) :=
  if inRange x a.shape then .ok { a with elem := fun y => if y = x then v else a.elem y } else .ub

/-- a type of elements: the default, `operator=` (new value, old value) and `copyMultiArrayElement` (resonanceFitHelper.h:117-134). -/
structure Ops (T : Type) where
  default : T
  assign : T → T → T
  copyElem : T → T → T

/-- ordinary elements: resonanceFitHelper.h:117-123. -/
def Ops.plain {T : Type} (d : T) : Ops T := ⟨d, fun v _ => v, fun v _ => v⟩

/-- `TMatrixT`: sizes and entries. -/
structure Mat (R : Type) where
  rows : ℕ
  cols : ℕ
  entry : ℕ → ℕ → R

/-- matrices: assignment works for equal sizes only, resonanceFitHelper.h:126-133 resizes first. -/
def Ops.mat {R : Type} (z : R) : Ops (Mat R) :=
  ⟨⟨0, 0, fun _ _ => z⟩, fun v old => if v.rows = old.rows ∧ v.cols = old.cols then v else old, fun v _ => v⟩

/-- a new array. -/
def Arr.new {T : Type} (o : Ops T) (shape : List ℕ) : Arr T := ⟨shape, fun _ => o.default⟩

/-- `resize` of boost. -/
def Arr.resize {T : Type} (o : Ops T) (shape : List ℕ) (a : Arr T) : Arr T :=
  ⟨shape, fun x => if inRange x a.shape && inRange x shape then o.assign (a.elem x) o.default else o.default⟩

/-- resonanceFitHelper.h:136-164 `copyMultiArray`; the first argument is the number of indices that are missing. -/
def copyLoop {T : Type} (o : Ops T) (src : Arr T) : ℕ → List ℕ → List ℕ → Arr T → Outcome (Arr T)
  | 0, si, ti, tgt => do
    let v ← src.at si
    let old ← tgt.at ti
    tgt.put ti (o.copyElem v old)
  | k + 1, si, ti, tgt => (List.range (src.shape.getD si.length 0)).foldlM (fun t i => copyLoop o src k (si ++ [i]) (ti ++ [i]) t) tgt

/-- resonanceFitHelper.h:136-164 with the assertions. -/
def copyMultiArray {T : Type} (o : Ops T) (src : Arr T) (si : List ℕ) (tgt : Arr T) (ti : List ℕ) : Outcome (Arr T) :=
  if si.length ≤ src.shape.length ∧ ti.length ≤ tgt.shape.length ∧ src.shape.length - si.length = tgt.shape.length - ti.length then
    copyLoop o src (src.shape.length - si.length) si ti tgt
  else .terminate

/-- resonanceFitHelper.h:206-213, 240-247: the loop over the other dimensions: whether one has to grow, and the new dimensions. -/
def newDims : List ℕ → List ℕ → Bool × List ℕ
  | d :: ds, p :: ps => if d < p then (true, p :: (newDims ds ps).2) else ((newDims ds ps).1, d :: (newDims ds ps).2)
  | ds, _ => (false, ds)

/-- resonanceFitHelper.h:170-180, 192-217 `adjustSize`; the number of dimensions of the part is one less. -/
def adjustSize {T : Type} (o : Ops T) (master : Arr T) (part : List ℕ) (minFirst : ℕ) : Arr T :=
  match master.shape with
  | [] => master
  | d :: ds => if (d < minFirst) || (newDims ds part).1 then master.resize o (max d minFirst :: (newDims ds part).2) else master

/-- resonanceFitHelper.h:224-263 `adjustSize` for matrices. -/
def adjustSizeMat {R : Type} (z : R) (master : Arr (Mat R)) (part : List ℕ) (minFirst : ℕ) : Outcome (Arr (Mat R)) :=
  match master.shape with
  | [] => .ok master
  | d :: ds =>
    if (d < minFirst) || (newDims ds part).1 then do
      let temp ← copyMultiArray (Ops.mat z) master [] (Arr.new (Ops.mat z) master.shape) []
      let cleared := master.resize (Ops.mat z) (master.shape.map fun _ => 0)
      let resized := cleared.resize (Ops.mat z) (max d minFirst :: (newDims ds part).2)
      copyMultiArray (Ops.mat z) temp [] resized []
    else .ok master

/-- resonanceFitHelper.h:283-291 `adjustSizeAndSet` for arrays with one dimension. -/
def setOne {T : Type} (o : Ops T) (master : Arr T) (idx : ℕ) (part : T) : Outcome (Arr T) := do
  let m := adjustSize o master [] (idx + 1)
  let old ← m.at [idx]
  m.put [idx] (o.assign part old)

/-- resonanceFitHelper.h:295-304 `adjustSizeAndSet` for arrays. -/
def setPart {T : Type} (o : Ops T) (master : Arr T) (idx : ℕ) (part : Arr T) : Outcome (Arr T) :=
  copyMultiArray o part [] (adjustSize o master part.shape (idx + 1)) [idx]

/-- resonanceFitHelper.h:295-304 `adjustSizeAndSet` for arrays of matrices. -/
def setPartMat {R : Type} (z : R) (master : Arr (Mat R)) (idx : ℕ) (part : Arr (Mat R)) : Outcome (Arr (Mat R)) := do
  let m ← adjustSizeMat z master part.shape (idx + 1)
  copyMultiArray (Ops.mat z) part [] m [idx]

/-- resonanceFitReadData.cc:1171-1184: the parts of all bins, one after the other, into an array without elements. -/
def combine {T : Type} (set : Arr T → ℕ → Arr T → Outcome (Arr T)) : Arr T → ℕ → List (Arr T) → Outcome (Arr T)
  | a, _, [] => .ok a
  | a, i, p :: ps => do
    let a' ← set a i p
    combine set a' (i + 1) ps

/-- resonanceFitHelper.h:269-277, 310-318 `adjustSizeAndSet` for `std::vector`. -/
def setVec {T : Type} (d : T) (master : List T) (idx : ℕ) (part : T) : List T :=
  (master ++ List.replicate (idx + 1 - master.length) d).set idx part

/-- resonanceFitHelper.h:41-114 `checkSize`: the sizes are compared one after the other. -/
def checkSize : List ℕ → List ℕ → Outcome Unit
  | d :: ds, e :: es => if e ≠ d then .terminate else checkSize ds es
  | _, _ => .ok ()

end Rpwa.Arrays

import Verif.Model.Basic
import Mathlib.Data.Complex.Basic
import Mathlib.LinearAlgebra.Matrix.Defs
import Mathlib.LinearAlgebra.Matrix.Determinant.Basic
/-!
# Complex matrices

Models `partialWaveFit/complexMatrix.{h,cc}`.  Simplifications:
* `bnu::matrix<complex<double>>` is its two sizes and its row-major storage; the element `(i, j)` is storage position
  `i * size2 + j`, an access outside of the storage is `ub` (uBLAS compiled without its checks, the default of a release build);
* `double` is `Real`; messages are omitted; streams are the stored array. -/
namespace Rpwa.CMat

open Finset

/-- complexMatrix.h:89 `_matrix`: `data k` for `k < size1 * size2` is allocated. -/
structure CMatrix where
  size1 : ℕ
  size2 : ℕ
  data : ℕ → ℂ

/-- complexMatrix.h:64 `get`. -/
def CMatrix.get (A : CMatrix) (i j : ℕ) : Outcome ℂ :=
  if i * A.size2 + j < A.size1 * A.size2 then .ok (A.data (i * A.size2 + j)) else .ub

/-- a new uBLAS matrix filled from an expression. -/
def CMatrix.ofFn (n m : ℕ) (f : ℕ → ℕ → ℂ) : CMatrix := ⟨n, m, fun k => f (k / m) (k % m)⟩

/-- the loop of l.50-56: `i` outer, `j` inner, leave at the first difference. -/
def eqLoop (A B : CMatrix) (same : ℂ → ℂ → Prop) [DecidableRel same] : List (ℕ × ℕ) → Outcome Bool
  | [] => .ok true
  | (i, j) :: l => do
    let x ← A.get i j
    let y ← B.get i j
    if same x y then eqLoop A B same l else pure false

/-- the pairs visited by the loops of l.50-51 and l.70-71: `i < nCols()`, `j < nRows()`. -/
def loopPairs (A : CMatrix) : List (ℕ × ℕ) :=
  (List.range A.size2).flatMap fun i => (List.range A.size1).map fun j => (i, j)

open Classical in
/-- complexMatrix.cc:45-58 `operator==`. -/
noncomputable def CMatrix.beq (A B : CMatrix) : Outcome Bool :=
  if A.size2 ≠ B.size2 ∨ A.size1 ≠ B.size1 then .ok false else eqLoop A B (· = ·) (loopPairs A)

open Classical in
/-- complexMatrix.cc:61-95 `equalToPrecision` (not verbose). -/
noncomputable def CMatrix.equalToPrecision (A B : CMatrix) (prec : ℝ) : Outcome Bool :=
  if A.size2 ≠ B.size2 ∨ A.size1 ≠ B.size1 then .ok false
  else eqLoop A B (fun x y => ¬ (|x.re - y.re| > prec) ∧ ¬ (|x.im - y.im| > prec)) (loopPairs A)

/-- complexMatrix.cc:98-101 `t` (`bnu::trans`). -/
def CMatrix.t (A : CMatrix) : CMatrix := .ofFn A.size2 A.size1 fun i j => A.data (j * A.size2 + i)

/-- complexMatrix.cc:104-107 `dagger`: `bnu::conj`, element by element. -/
noncomputable def CMatrix.dagger (A : CMatrix) : CMatrix := .ofFn A.size1 A.size2 fun i j => (starRingEnd ℂ) (A.data (i * A.size2 + j))

/-- complexMatrix.cc:139-142 (`bnu::prod`), for matching sizes. -/
noncomputable def CMatrix.mul (A B : CMatrix) : CMatrix :=
  .ofFn A.size1 B.size2 fun i j => ∑ k ∈ range A.size2, A.data (i * A.size2 + k) * B.data (k * B.size2 + j)

/-- complexMatrix.cc:145-148, for matching sizes. -/
noncomputable def CMatrix.sub (A B : CMatrix) : CMatrix :=
  .ofFn A.size1 A.size2 fun i j => A.data (i * A.size2 + j) - B.data (i * B.size2 + j)

/-- complexMatrix.cc:151-154, for matching sizes. -/
noncomputable def CMatrix.add (A B : CMatrix) : CMatrix :=
  .ofFn A.size1 A.size2 fun i j => A.data (i * A.size2 + j) + B.data (i * B.size2 + j)

/-- result of `bnu::lu_factorize`: `singular`, or the factors in one matrix and the rows that were swapped. -/
structure LU where
  singular : Bool
  factors : CMatrix
  perm : ℕ → ℕ

/-- complexMatrix.cc:119-135: product of the diagonal, a sign for every swap. -/
noncomputable def detOfLU (n : ℕ) (lu : LU) : ℂ :=
  if lu.singular then 0
  else
    let det := (List.range n).foldl (fun d i => d * lu.factors.data (i * n + i)) 1
    let sign : ℤ := (List.range n).foldl (fun s i => if i ≠ lu.perm i then s * (-1) else s) 1
    det * sign

/-- complexMatrix.cc:110-136 `determinant`; `luFactorize` is the uBLAS function. -/
noncomputable def CMatrix.determinant (luFactorize : CMatrix → LU) (A : CMatrix) : ℂ :=
  if A.size1 ≠ A.size2 then 0 else detOfLU A.size1 (luFactorize A)

/-! ### storing -/

/-- what is written to a file: `_size1`, `_size2`, `_data`. -/
structure Stored where
  size1 : ℕ
  size2 : ℕ
  data : List ℂ

/-- complexMatrix.cc:182-198 `storeMatrix`. -/
def CMatrix.store (A : CMatrix) : Stored :=
  ⟨A.size1, A.size2, (List.range A.size1).flatMap fun i => (List.range A.size2).map fun j => A.data (i * A.size2 + j)⟩

/-- complexMatrix.cc:164-179 `readMatrix`: elements in the order of the array (`dataIndex++`). -/
def CMatrix.read (s : Stored) : CMatrix :=
  if s.size1 > 0 ∧ s.size2 > 0 then .ofFn s.size1 s.size2 fun i j => s.data.getD (i * s.size2 + j) 0
  else ⟨0, 0, fun _ => 0⟩

/-! ### lifetime of the stored array (complexMatrix.h has no copy constructor or assignment, the implicit ones copy `_data`) -/

/-- the heap and the objects: `data i` is the `_data` member of object `i` (`none`: null), for the objects in `live`. -/
structure Mem where
  heap : Finset ℕ
  next : ℕ
  live : Finset ℕ
  data : ℕ → Option ℕ

def Mem.empty : Mem := ⟨∅, 0, ∅, fun _ => none⟩

inductive Op where
  /-- complexMatrix.h:42-61: constructors. -/
  | create (i : ℕ)
  /-- implicit copy constructor: `j` becomes a copy of `i`. -/
  | copy (i j : ℕ)
  /-- implicit assignment `j = i`. -/
  | assign (i j : ℕ)
  /-- complexMatrix.cc:182-198. -/
  | store (i : ℕ)
  /-- complexMatrix.cc:37-42: destructor. -/
  | destroy (i : ℕ)

/-- `delete [] p`. -/
def Mem.free (m : Mem) : Option ℕ → Outcome Mem
  | none => .ok m
  | some p => if p ∈ m.heap then .ok { m with heap := m.heap.erase p } else .ub

/-- effect of an operation on the arrays; operations on objects that are not alive (or creating a live one) do nothing. -/
def Mem.step (m : Mem) : Op → Outcome Mem
  | .create i => .ok (if i ∈ m.live then m else { m with live := insert i m.live, data := (Function.update m.data i none) })
  | .copy i j => .ok (if i ∈ m.live ∧ j ∉ m.live then { m with live := insert j m.live, data := (Function.update m.data j (m.data i)) } else m)
  | .assign i j => .ok (if i ∈ m.live ∧ j ∈ m.live then { m with data := (Function.update m.data j (m.data i)) } else m)
  | .store i =>
    if i ∈ m.live then do
      let m ← m.free (m.data i)
      pure { m with heap := insert m.next m.heap, next := m.next + 1, data := (Function.update m.data i (some m.next)) }
    else .ok m
  | .destroy i =>
    if i ∈ m.live then do
      let m ← m.free (m.data i)
      pure { m with live := m.live.erase i }
    else .ok m

end Rpwa.CMat

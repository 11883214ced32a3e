import Verif.Model.Basic
import Mathlib.Data.Complex.Basic
import Mathlib.Logic.Function.Basic
/-!
# The CUDA machine used by cuda/likelihoodInterface.cu and cuda/likelihoodKernel.cu

The CUDA runtime itself is not part of the repository; this file fixes the part of its semantics on which the code relies.  Device
memory is a set of arrays, each with a number of elements and possibly uninitialised elements.  A thread is a program that reads and
writes single elements; the threads of one launch run interleaved in any order, one memory access at a time.  An access outside an
array, a read of an uninitialised element or of an element of the other type is `ub`.  A thread that never ends makes the launch never
return (`terminate`).  Device memory never runs out (the code's `checkCudaErrors` would end the program). -/
namespace Rpwa.Cuda

/-- one element of a device array: `value_type` or `complexT`. -/
inductive Val where
  | re (x : ℝ)
  | cx (z : ℂ)

/-- a device array: number of elements, contents (`none`: never written). -/
structure Block where
  len : ℕ
  cell : ℕ → Option Val

/-- device memory; the null pointer is 0. -/
abbrev Heap := ℕ → Option Block

/-- read one element. -/
def Heap.get (h : Heap) (p o : ℕ) : Option Val :=
  match h p with
  | some b => if o < b.len then b.cell o else none
  | none => none

/-- write one element. -/
def Heap.set (h : Heap) (p o : ℕ) (v : Val) : Option Heap :=
  match h p with
  | some b => if o < b.len then some (Function.update h p (some { b with cell := Function.update b.cell o (some v) })) else none
  | none => none

/-- program of one thread. -/
inductive Prog (α : Type) where
  | ret (a : α)
  | read (p o : ℕ) (k : Val → Prog α)
  | write (p o : ℕ) (v : Val) (k : Prog α)
  | hang
  | fault

/-- sequential composition. -/
def Prog.bind {α β : Type} : Prog α → (α → Prog β) → Prog β
  | .ret a, f => f a
  | .read p o k, f => .read p o fun v => (k v).bind f
  | .write p o v k, f => .write p o v (k.bind f)
  | .hang, _ => .hang
  | .fault, _ => .fault

instance : Monad Prog where
  pure := .ret
  bind := Prog.bind

/-- the two element types of the device arrays. -/
class DevVal (T : Type) where
  toVal : T → Val
  ofVal : Val → Option T

instance : DevVal ℝ where
  toVal := .re
  ofVal | .re x => some x
        | .cx _ => none

instance : DevVal ℂ where
  toVal := .cx
  ofVal | .cx x => some x
        | .re _ => none

/-- `d_array[o]` as an rvalue. -/
def load (T : Type) [DevVal T] (p o : ℕ) : Prog T :=
  .read p o fun v => match DevVal.ofVal (T := T) v with
    | some x => .ret x
    | none => .fault

/-- `d_array[o] = x`. -/
def store {T : Type} [DevVal T] (p o : ℕ) (x : T) : Prog Unit := .write p o (DevVal.toVal x) (.ret ())

/-- one memory access of a thread. -/
def step (h : Heap) : Prog Unit → Outcome (Heap × Prog Unit)
  | .ret a => .ok (h, .ret a)
  | .read p o k => match h.get p o with
    | some v => .ok (h, k v)
    | none => .ub
  | .write p o v k => match h.set p o v with
    | some h' => .ok (h', k)
    | none => .ub
  | .hang => .terminate
  | .fault => .ub

/-- the threads make steps in the order given by the list of thread numbers. -/
def runSched : List ℕ → Heap → List (Prog Unit) → Outcome (Heap × List (Prog Unit))
  | [], h, ts => .ok (h, ts)
  | i :: s, h, ts =>
    match ts[i]? with
    | none => runSched s h ts
    | some t => do
      let (h', t') ← step h t
      runSched s h' (ts.set i t')

/-- run a thread to its end. -/
def finish : Prog Unit → Heap → Outcome Heap
  | .ret _, h => .ok h
  | .read p o k, h => match h.get p o with
    | some v => finish (k v) h
    | none => .ub
  | .write p o v k, h => match h.set p o v with
    | some h' => finish k h'
    | none => .ub
  | .hang, _ => .terminate
  | .fault, _ => .ub

/-- a launch: the threads run in the order `sched`; what is left when `sched` is exhausted runs one thread after the other.  (Every
complete interleaving is a possible `sched`.) -/
def launch (sched : List ℕ) (h : Heap) (ts : List (Prog Unit)) : Outcome Heap := do
  let (h', ts') ← runSched sched h ts
  ts'.foldlM (fun h t => finish t h) h'

/-- 32-bit unsigned arithmetic. -/
def u32 (n : ℕ) : ℕ := n % 2 ^ 32

end Rpwa.Cuda

/-!
# Common vocabulary of the model

`Outcome` separates a normal return from the two abnormal endings that occur in the C++ code:
* `terminate`: the code executes `throw;` without an active exception (its "Aborting..." idiom,
  e.g. utilities/factorial.hpp:64), a failing `assert`, or `exit`; the call never returns a value;
* `ub`: the code would access memory outside an object (undefined behaviour).
-/

namespace Rpwa

inductive Outcome (α : Type u) where
  | ok (a : α)
  | terminate
  | ub
  deriving Repr, DecidableEq

namespace Outcome

def map {α : Type u} {β : Type v} (f : α → β) : Outcome α → Outcome β
  | ok a => ok (f a)
  | terminate => terminate
  | ub => ub

def bind {α : Type u} {β : Type v} (x : Outcome α) (f : α → Outcome β) : Outcome β :=
  match x with
  | ok a => f a
  | terminate => terminate
  | ub => ub

instance : Monad Outcome where
  pure := ok
  bind := bind

@[simp] theorem ok_bind {α β : Type u} (a : α) (f : α → Outcome β) : (Outcome.ok a >>= f) = f a := rfl
@[simp] theorem terminate_bind {α β : Type u} (f : α → Outcome β) : ((Outcome.terminate : Outcome α) >>= f) = .terminate := rfl
@[simp] theorem ub_bind {α β : Type u} (f : α → Outcome β) : ((Outcome.ub : Outcome α) >>= f) = .ub := rfl
@[simp] theorem pure_eq {α : Type u} (a : α) : (pure a : Outcome α) = .ok a := rfl

end Outcome

/-- utilities/mathUtils.hpp:88-94 `isOdd`: `val & 0x1`. On two's complement integers the lowest bit
is the non-negative remainder mod 2, also for negative values (Lean's `%` on `Int`). -/
def isOdd (v : Int) : Bool := v % 2 == 1

/-- utilities/mathUtils.hpp:97-103 `isEven`: `not isOdd(val)`. -/
def isEven (v : Int) : Bool := !isOdd v

/-- utilities/mathUtils.hpp:77-85 `powMinusOne`: `-1` if `exponent & 0x1`, `+1` otherwise. -/
def powMinusOne (e : Int) : Int := if e % 2 == 1 then -1 else 1

/-- utilities/mathUtils.hpp:106-115 `signum` on integers. -/
def signum (v : Int) : Int := if v < 0 then -1 else if v > 0 then 1 else 0

end Rpwa

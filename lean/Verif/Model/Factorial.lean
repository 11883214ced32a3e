import Verif.Model.Basic
/-!
# Model of utilities/factorial.hpp

`mx` is `std::numeric_limits<T>::max()` of an integer type `T`; all values are natural numbers and `/` is
integer division. (For floating-point `T` the same check is done with rounding, not modelled.)
-/
namespace Rpwa.Factorial

/-- utilities/factorial.hpp:58-67: the loop that fills entries `cacheSize … n`; `k` is the number of
remaining iterations, the index of the next entry is `cache.length`. The vector is first resized
(line 57), which fills the new entries with zeros that are overwritten before being read; the model
appends instead. An overflow is detected by `max / i < cache[i-1]` (line 60) and ends the process
(line 64). -/
def fill (mx : Nat) : Nat → List Nat → Outcome (List Nat)
  | 0, cache => .ok cache
  | k + 1, cache =>
    let i := cache.length
    match cache[i - 1]? with
    | none => .ub                              -- `_cache[i - 1]` of an empty vector
    | some prev =>
      if mx / i < prev then .terminate
      else fill mx k (cache ++ [i * prev])

/-- utilities/factorial.hpp:53-70 `operator ()`: returns the value and the new cache. -/
def call (mx : Nat) (cache : List Nat) (n : Nat) : Outcome (Nat × List Nat) :=
  let filled := if n ≥ cache.length then fill mx (n + 1 - cache.length) cache else .ok cache
  match filled with
  | .ok c =>
    match c[n]? with
    | some v => .ok (v, c)
    | none => .ub                              -- read past the end of the vector
  | .terminate => .terminate
  | .ub => .ub

/-- utilities/factorial.hpp:87: the cache starts as `vector<T>(1, 1)`. -/
def init : List Nat := [1]

/-- History of requests; a request that does not return ends the history. -/
def run (mx : Nat) (cache : List Nat) : List Nat → Option (List Nat)
  | [] => some cache
  | n :: ns =>
    match call mx cache n with
    | .ok (_, c) => run mx c ns
    | _ => none

end Rpwa.Factorial

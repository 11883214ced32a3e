import Verif.Model.Basic
/-!
# Model of the pseudo-n-dimensional array functions of utilities/arrayUtils.hpp

Index and extent arrays are lists of natural numbers (the code's unsigned template type `T`; wrap-around is
not modelled). The code performs no range checks; the precondition of the loops is a non-empty extent
array (`dim[0]`, `indices[0]` are read unconditionally), so the empty list is `ub`.
-/
namespace Rpwa.ArrayUtils

/-- arrayUtils.hpp:155-162 `nmbElements`. -/
def nmbElements : List Nat → Outcome Nat
  | [] => .ub
  | d :: ds => .ok (ds.foldl (· * ·) d)

/-- arrayUtils.hpp:206-214 and 219-226 `indicesToOffset`: `offset = offset * dim[i] + indices[i]` for
`i = 1 … n-1`. Reading an index that is not there is `ub`. -/
def indicesLoop : Nat → List Nat → List Nat → Outcome Nat
  | offset, _, [] => .ok offset
  | _, [], _ :: _ => .ub
  | offset, x :: xs, d :: ds => indicesLoop (offset * d + x) xs ds

def indicesToOffset (indices dim : List Nat) : Outcome Nat :=
  match indices, dim with
  | i :: is, _ :: ds => indicesLoop i is ds
  | _, _ => .ub

/-- arrayUtils.hpp:233-244 and 249-259 `offsetToIndices`: the loop runs from the last dimension to
dimension 1; `index % dim[i]` with extent 0 is `ub`. `dims` are the extents `dim[1] … dim[n-1]`; returns
the remaining index and the indices found so far. -/
def offsetLoop : Nat → List Nat → Outcome (Nat × List Nat)
  | index, [] => .ok (index, [])
  | index, d :: ds =>
    match offsetLoop index ds with
    | .ok (rest, is) => if d = 0 then .ub else .ok (rest / d, (rest % d) :: is)
    | .terminate => .terminate
    | .ub => .ub

def offsetToIndices (offset : Nat) (dim : List Nat) : Outcome (List Nat) :=
  match dim with
  | [] => .ub
  | _ :: ds =>
    match offsetLoop offset ds with
    | .ok (rest, is) => .ok (rest :: is)
    | .terminate => .terminate
    | .ub => .ub

end Rpwa.ArrayUtils

import Mathlib.Data.List.Sort
import Verif.Model.Basic

/-! # `std::next_permutation`

Used by `decayAmplitude/isobarDecayTopology.cc` l.823 (`genBoseSymTermMaps`) and l.897, l.910
(`getAllGroupPermutations`).  The C++ standard specifies the function by its effect; we transcribe
the algorithm of libstdc++ (`bits/stl_algo.h`, `__next_permutation`): find the last position `i` with
`v[i] < v[i+1]`, exchange `v[i]` with the last later element that is larger, and reverse the part
behind `i`; when there is no such position reverse everything and return `false`. -/

namespace Rpwa.NextPerm

/-- Replace the first element larger than `a` by `a` and return the replaced element
(`none` when nothing is larger).  On the *reversed* suffix this is "exchange `v[i]` with the last
element of the suffix that is larger". -/
def swapFirstGreater (a : ℕ) : List ℕ → Option (ℕ × List ℕ)
  | [] => none
  | b :: l =>
    if a < b then some (b, a :: l)
    else match swapFirstGreater a l with
      | some (c, l') => some (c, b :: l')
      | none => none

/-- The `true` branch of `std::next_permutation`; `none` when the sequence is already the last
permutation.  Recursing into the tail first finds the *last* position `i` with `v[i] < v[i+1]`. -/
def next : List ℕ → Option (List ℕ)
  | [] => none
  | a :: l => match next l with
    | some l' => some (a :: l')
    | none => match swapFirstGreater a l.reverse with
      | some (b, l') => some (b :: l')
      | none => none

/-- `std::next_permutation(v.begin(), v.end())`: new content of `v` and return value; on the last
permutation the content is reversed (which makes it the first one) and the result is `false`. -/
def nextPermutation (l : List ℕ) : List ℕ × Bool :=
  match next l with
  | some l' => (l', true)
  | none => (l.reverse, false)

end Rpwa.NextPerm

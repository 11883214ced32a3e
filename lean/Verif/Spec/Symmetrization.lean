import Mathlib.Data.List.Perm.Basic

/-! # Specification for Bose symmetrisation -/

namespace Rpwa.Sym

/-- A permutation map `p` (particle `i` receives the momentum of particle `p[i]`) exchanges only
particles with equal names: it is a permutation of `0 … n-1` and `names[p[i]] = names[i]`. -/
def IsExchange {α : Type} (names : List α) (p : List ℕ) : Prop :=
  p.Perm (List.range names.length) ∧
    ∀ i, i < names.length → names[p.getD i 0]? = names[i]?

end Rpwa.Sym

import Verif.Model.BestResult
/-!
# Specification for collecting fit results (C34) -/
namespace Rpwa.Best

variable {κ π : Type} [DecidableEq κ]

/-- the fit attempts of a bin that are asked for, in the order of the files. -/
def attempts (onlyConverged : Bool) (trees : List (List (Attempt κ π))) (k : κ) : List (Attempt κ π) :=
  trees.flatten.filter fun a => (a.bin = k) ∧ (onlyConverged = true → a.converged = true)

/-- attempt `n` is the first of the best ones among those with property `p`. -/
def FirstBest (p : Attempt κ π → Prop) (A : List (Attempt κ π)) (n : ℕ) : Prop :=
  ∃ a, A[n]? = some a ∧ p a ∧ ∀ m b, A[m]? = some b → p b → a.logL ≤ b.logL ∧ (m < n → a.logL < b.logL)

/-- which attempts keep their matrices: all of them, or the best one, and the best converged one if the best one has not
converged. -/
def Keeps (strip : Bool) (A : List (Attempt κ π)) (n : ℕ) : Prop :=
  strip = false ∨ FirstBest (fun _ => True) A n ∨
    (FirstBest (fun a => a.converged = true) A n ∧ ∀ i a, FirstBest (fun _ => True) A i → A[i]? = some a → a.converged = false)

/-- `out` is the list `inp` in ascending order, equal values in the original order. -/
def StableSorted (inp out : List (Stored κ π)) : Prop :=
  out.Perm inp ∧ out.Pairwise (fun x y => x.result.logL ≤ y.result.logL) ∧
  ∀ v : ℝ, (out.filter fun x => decide (x.result.logL = v)) = inp.filter fun x => decide (x.result.logL = v)

end Rpwa.Best

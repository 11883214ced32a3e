import Verif.Model.LikTools
import Verif.Spec.Likelihood
/-!
# Specification for C26-C29 -/
namespace Rpwa.Lik

/-- `B` is the right inverse of the `n × n` matrix `A`. -/
def IsInverse (n : ℕ) (A B : ℕ → ℕ → ℝ) : Prop :=
  ∀ i < n, ∀ k < n, (∑ j ∈ Finset.range n, A i j * B j k) = if i = k then 1 else 0

/-- assumption about ROOT: a matrix that has an inverse is inverted. -/
def Inverts (inv : ℕ → (ℕ → ℕ → ℝ) → (ℕ → ℕ → ℝ)) : Prop := ∀ n M, (∃ B, IsInverse n M B) → IsInverse n M (inv n M)

/-- `B` inverts `H` on the free parameters. -/
def InverseOnFree (d : ParData) (H B : ℕ → ℕ → ℝ) : Prop :=
  ∀ i k, i < d.nmbPars → k < d.nmbPars → LikData.fixedAt d i = false → LikData.fixedAt d k = false →
    (∑ j ∈ (Finset.range d.nmbPars).filter (fun j => LikData.fixedAt d j = false), H i j * B j k) = if i = k then 1 else 0

/-- assumption about ROOT: the pairs are eigenvectors and eigenvalues. -/
def IsEigen (n : ℕ) (M : ℕ → ℕ → ℝ) (v : ℕ → ℝ) (lam : ℝ) : Prop := ∀ i < n, (∑ j ∈ Finset.range n, M i j * v j) = lam * v i

/-- setters of the prior. -/
def DerivState.Op.isSetter : DerivState.Op → Prop
  | .setPriorType _ => True
  | .setCauchyWidth _ => True
  | _ => False

end Rpwa.Lik

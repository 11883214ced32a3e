import Verif.Spec.Likelihood
import Verif.Spec.LikTools
/-! # C106: slices of a function of many parameters along straight lines -/
namespace Rpwa.Lik

open Finset

/-- value of `F` at the distance `x` from `par` in the direction `e`, relative to the value at `par`. -/
noncomputable def slice (F : (ℕ → ℝ) → ℝ) (par e : ℕ → ℝ) (x : ℝ) : ℝ := F (fun i => par i + x * e i) - F par

/-- the direction `e` leaves the fixed parameters alone. -/
def InFree (d : ParData) (e : ℕ → ℝ) : Prop := ∀ i < d.nmbPars, LikData.fixedAt d i = true → e i = 0

/-- length of a vector, squared. -/
noncomputable def norm2 (d : ParData) (e : ℕ → ℝ) : ℝ := ∑ i ∈ range d.nmbPars, e i * e i

end Rpwa.Lik

namespace Rpwa.Lik

/-- assumption about ROOT: for a symmetric matrix it gives eigenvalues and eigenvectors of length 1. -/
def EigenOk (eig : ℕ → (ℕ → ℕ → ℝ) → ℕ → (ℕ → ℝ) × ℝ) : Prop :=
  ∀ n M, (∀ i j, M i j = M j i) → ∀ i < n, IsEigen n M (eig n M i).1 (eig n M i).2 ∧ ∑ j ∈ Finset.range n, (eig n M i).1 j * (eig n M i).1 j = 1

end Rpwa.Lik

namespace Rpwa.Lik

/-- 101 points of a slice, evenly spaced between `-√lam` and `√lam`. -/
noncomputable def sliceGraph (F : (ℕ → ℝ) → ℝ) (par e : ℕ → ℝ) (lam : ℝ) : List (ℝ × ℝ) :=
  (List.range 101).map fun n : ℕ => ((((n : ℝ) - 50) / 50) * Real.sqrt lam, slice F par e ((((n : ℝ) - 50) / 50) * Real.sqrt lam))

/-- the list `E` has one eigenvector of length 1 and its eigenvalue for every free parameter; fixed parameters are left alone. -/
def FreeEigen (d : ParData) (C : ℕ → ℕ → ℝ) (E : List ((ℕ → ℝ) × ℝ)) : Prop :=
  E.length = ((List.range d.nmbPars).filter fun i => !LikData.fixedAt d i).length ∧
  ∀ ev ∈ E, IsEigen d.nmbPars C ev.1 ev.2 ∧ InFree d ev.1 ∧ norm2 d ev.1 = 1

end Rpwa.Lik

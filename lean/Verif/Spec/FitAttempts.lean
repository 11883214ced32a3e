import Verif.Model.FitAttempts
import Verif.Spec.PwaFit
/-! # Specification of repeated fits (C88) -/
namespace Rpwa.Attempts

open Rpwa.Lik Rpwa.Fit Rpwa.PwaFit

/-- at position `i` is the first of the results with the smallest value among those that satisfy `P`. -/
def FirstMin (rs : List FitResult) (P : FitResult → Prop) (i : ℕ) : Prop :=
  ∃ r, rs[i]? = some r ∧ P r ∧ ∀ (j : ℕ) (r' : FitResult), rs[j]? = some r' → P r' →
    r.logLikelihood ≤ r'.logLikelihood ∧ (j < i → r.logLikelihood < r'.logLikelihood)

/-- the results of the fits with these seeds, in this order. -/
def Fits (fit : ℕ → ℕ → Outcome FitResult) (seeds : List ℕ) (rs : List FitResult) : Prop :=
  rs.length = seeds.length ∧ ∀ (k : ℕ) (s : ℕ), seeds[k]? = some s → ∃ r, rs[k]? = some r ∧ fit k s = .ok r

/-- no name of a production amplitude of a wave of the likelihood contains a piece that `fitParameter` looks for. -/
def PlainNames (l : Lik) : Prop :=
  ∀ r e w, r < l.fn.rank → e < 2 → w < l.fn.nW e →
    ¬ "RE".toList <:+: (ampName l.waves (r, e, w)).toList ∧ ¬ "_IM".toList <:+: (ampName l.waves (r, e, w)).toList ∧
    ¬ "flat".toList <:+: (ampName l.waves (r, e, w)).toList

/-- the waves have different names. -/
def DistinctNames (l : Lik) : Prop :=
  ∀ i ∈ waveIxs l.fn.nW, ∀ j ∈ waveIxs l.fn.nW, l.waves.name i.1 i.2 = l.waves.name j.1 j.2 → i = j

end Rpwa.Attempts

import Verif.Model.Likelihood
/-!
# Specification for C24-C29 -/
namespace Rpwa.Lik

/-- the likelihood object belongs to the parameter layout `d` built from the wave list `wl`, after the parameters of some empty waves
(none of them called "flat") have been fixed. -/
structure LikData.Matches (L : LikData) (wl : WaveList) (d : ParData) (m : ℝ) : Prop where
  built : ∃ (d0 : ParData) (empty : List String), buildParDataStruct wl L.rank m = .ok (some d0) ∧ "flat" ∉ empty ∧ d = empty.foldl fixWave d0
  waves : L.nW = wl.nW

/-- the acceptance integral matrix is Hermitian (true of every integral matrix, C19). -/
def LikData.AccHermitian (L : LikData) : Prop := ∀ e i j, L.accMatrix e j i = (starRingEnd ℂ) (L.accMatrix e i j)

/-- production amplitudes and flat amplitude that belong to a parameter array. -/
noncomputable def LikData.amps (L : LikData) (par : ℕ → ℝ) : Amps := (copyFromParArray L.rank L.nW par).1
noncomputable def LikData.flat (L : LikData) (par : ℕ → ℝ) : ℝ := (copyFromParArray L.rank L.nW par).2

/-- the likelihood is defined at `par`: no event has zero intensity, and the width of the prior is not zero. -/
structure LikData.DefinedAt (L : LikData) (par : ℕ → ℝ) : Prop where
  intensity : ∀ ev < L.nmbEvents, L.sigma (L.amps par) (L.flat par) ev ≠ 0
  width : L.prior = .halfCauchy → L.cauchyWidth ≠ 0

/-- with the half-Cauchy prior the code divides by the modulus of the amplitude to which parameter `k` belongs. -/
def LikData.PriorDefinedAt (L : LikData) (d : ParData) (par : ℕ → ℝ) (k : ℕ) : Prop :=
  L.prior = .halfCauchy → ∀ s : Slot, s.1 < L.rank → s.2.1 < 2 → s.2.2 < L.nW s.2.1 →
    (d.map s).1 = some k ∨ (d.map s).2 = some k → L.amps par s ≠ 0

end Rpwa.Lik

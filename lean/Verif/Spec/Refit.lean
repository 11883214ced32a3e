import Verif.Model.Refit
import Verif.Spec.LikSetup
import Verif.Spec.FitAttempts
/-! # Specification: a stored fit is evaluated again (C90) -/
namespace Rpwa.Refit

open Rpwa.Lik Rpwa.Fit Rpwa.PwaFit

/-- the files and options of a likelihood; the waves, the rank, the mass and the normalisation are not given again. -/
def filesOf (inp : SetupInput) : Files := ⟨inp.norm, inp.acc, inp.accEventsOverride, inp.amps, inp.prior, inp.cauchyWidth⟩

/-- `s` is a likelihood of `N` events that has been set up from `inp` and that can be fitted; `desc` knows its waves. -/
structure FitOf (inp : SetupInput) (N : ℕ) (desc : Name → Option ℤ) (s : LikObj) : Prop where
  hdiag : inp.DiagOk
  husable : inp.Usable N
  hset : ∃ order, Succeeds LikObj.new (inp.protocol order) s
  hrank : 0 < inp.rank
  hplain : Attempts.PlainNames (likOf s inp.waves.threshold)
  hnorm : inp.useNorm = true ∨ N ≠ 1
  hdesc : ∀ w ∈ inp.ws, desc w.1.toList = some w.2.1

/-- the result of a fit of this likelihood that ended at `par`, as it is stored. -/
noncomputable def storedFit (inp : SetupInput) (s : LikObj) (o : Options) (bin : List (Name × ℝ × ℝ)) (par : ℕ → ℝ) (v : ℝ)
    (cov : ℕ → ℕ → ℝ) (c h : Bool) : FitResult :=
  FitResult.new.fillA (fillFitResult (likOf s inp.waves.threshold) o bin par v cov c h)

/-- all amplitudes of a wave are zero in a result. -/
def Vanishes (r : FitResult) (wave : Name) : Prop :=
  ∀ i < r.nmbProdAmps, waveNameOf (r.prodAmpNames.getD i []) = wave → r.prodAmps i = 0

/-- the centre of the mass bin; 0 without mass. -/
noncomputable def centre (bin : List (Name × ℝ × ℝ)) : ℝ := ((bin.lookup "mass".toList).map fun b => (b.1 + b.2) / 2).getD 0

end Rpwa.Refit

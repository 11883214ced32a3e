import Verif.Model.PwaFit
import Verif.Spec.LikTools
import Verif.Spec.FitParameters
/-!
# Specification of the partial-wave fit (C60-C62)
-/
namespace Rpwa.PwaFit

open Rpwa.Lik Rpwa.Fit

/-- what is assumed about the minimizer, for variables of which exactly the fixed parameters are fixed: the value it reports belongs to the point it reports, fixed variables keep their values, and if
the calculation of the covariance succeeds, it is twice the inverse of the matrix of second derivatives (Minuit's convention for
an error definition of 1). -/
structure MinimizerOk (l : Lik) (minimize : List Var → MinResult) : Prop where
  hvalue : ∀ vars, vars.map (·.fixed) = l.pars.params.map (·.fixed) → (minimize vars).minValue = l.fn.doEval (minimize vars).x
  hfixed : ∀ (vars : List Var) i v, vars.map (·.fixed) = l.pars.params.map (·.fixed) → vars[i]? = some v → v.fixed = true → (minimize vars).x i = v.value
  hcov : ∀ vars, vars.map (·.fixed) = l.pars.params.map (·.fixed) → (minimize vars).hesse = true →
    InverseOnFree l.pars (l.fn.hessian l.pars (minimize vars).x) fun i j => (minimize vars).cov i j / 2

/-- the name of an amplitude. -/
def ampName (wl : WaveList) (s : Slot) : String := "V" ++ toString s.1 ++ "_" ++ wl.name s.2.1 s.2.2

/-- the data of a fit result belong to the parameters `par`: the production amplitudes, each with its name and the indices of its
parameters, and the flat wave last. -/
structure Stored (l : Lik) (par : ℕ → ℝ) (slots : List Slot) (a : FillArgs) : Prop where
  hevents : a.nmbEvents = l.fn.nmbEvents
  hnorm : a.normNmbEvents = if l.fn.useNormalizedAmps then 1 else l.fn.nmbEvents
  hrank : a.rank = l.fn.rank
  hnodup : slots.Nodup
  hfree : ∀ s, s ∈ slots ↔ Free l.fn.rank l.fn.nW (s, true)
  hsize : a.nmbProdAmps = slots.length + 1 ∧ a.nmbCovIdx = slots.length + 1
  hnames : a.prodAmpNames = slots.map (fun s => (ampName l.waves s).toList) ++ ["V_flat".toList]
  hamps : ∀ i s, slots[i]? = some s → a.prodAmps i = l.fn.amps par s
  hflat : a.prodAmps slots.length = l.fn.flat par
  hindices : ∀ i s, slots[i]? = some s → ∃ k, (l.pars.map s).1 = some k ∧
    a.covIdx i = ((k : ℤ), match (l.pars.map s).2 with | some k' => (k' : ℤ) | none => -1)
  hflatIndex : a.covIdx slots.length = ((l.pars.nmbPars : ℤ) - 1, -1)

/-- the sign convention: the flat amplitude and the anchor amplitudes are real and not negative. -/
def Convention (l : Lik) (par : ℕ → ℝ) : Prop :=
  0 ≤ l.fn.flat par ∧ ∀ r e, r < l.fn.rank → e < 2 → r < l.fn.nW e →
    0 ≤ (l.fn.amps par (r, e, r)).re ∧ (l.fn.amps par (r, e, r)).im = 0

/-- the matrices of a fit result. -/
structure StoredMatrices (l : Lik) (slots : List Slot) (r : FitResult) : Prop where
  hnormInt : ∀ i j s t, slots[i]? = some s → slots[j]? = some t → ∃ v w, r.normIntIndexMap i = some v ∧ r.normIntIndexMap j = some w ∧
    r.normIntegral.entry v w = l.ints.ints.norm s.2 t.2 ∧ r.accNormIntegral.entry v w = l.ints.ints.acc s.2 t.2 ∧
    r.phaseSpaceIntegral.getD v 0 = l.ints.phaseSpace s.2
  hflat : ∃ v, r.normIntIndexMap slots.length = some v ∧ r.normIntegral.entry v v = 1 ∧ r.accNormIntegral.entry v v = l.ints.totAcc ∧
    r.phaseSpaceIntegral.getD v 0 = 1 ∧
    ∀ i s, slots[i]? = some s → ∃ w, r.normIntIndexMap i = some w ∧ r.normIntegral.entry v w = 0 ∧ r.normIntegral.entry w v = 0 ∧
      r.accNormIntegral.entry v w = 0 ∧ r.accNormIntegral.entry w v = 0

end Rpwa.PwaFit

namespace Rpwa.PwaFit

open Rpwa.Lik Rpwa.Fit

/-- parameter `k` is the `i`-th free parameter. -/
def FreeAt (d : ParData) (i k : ℕ) : Prop := ((List.range d.nmbPars).filter fun j => !LikData.fixedAt d j)[i]? = some k

/-- `par` are the parameters of the likelihood that belong to the values `p` of the free parameters; fixed parameters are zero. -/
def Expands (d : ParData) (p par : ℕ → ℝ) : Prop :=
  (∀ i k, FreeAt d i k → par k = p i) ∧ ∀ k < d.nmbPars, LikData.fixedAt d k = true → par k = 0

/-- the static buffers of the process are not used yet, or large enough for the likelihood. -/
def Buffers.Fit (b : Buffers) (d : ParData) : Prop :=
  (∀ x, b.pars = some x → d.nmbPars ≤ x.size) ∧ ∀ x, b.grad = some x → d.nmbPars ≤ x.size

/-- what is assumed about NLopt: the value it reports belongs to the point it reports. -/
def NloptOk (l : Lik) (optimize : List ℝ → Option NloptResult) : Prop :=
  ∀ s r par, optimize s = some r → Expands l.pars r.x par → r.minValue = l.fn.doEval par

end Rpwa.PwaFit

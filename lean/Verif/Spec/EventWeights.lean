import Verif.Model.EventWeights
import Verif.Spec.FitResult
import Verif.Spec.IntegralMatrix
/-!
# Specification of the weights of Monte Carlo events (C65) -/
namespace Rpwa.Wgt

open Rpwa.Fit Rpwa.Integral Finset

/-- the fit result has exactly the given production amplitudes, and its waves are those of the amplitudes, each listed once. -/
structure Lists (r : FitResult) (labels : List Label) : Prop where
  hnames : r.prodAmpNames = labels.map Label.text
  hcount : r.nmbProdAmps = labels.length
  hnodup : labels.Nodup
  hflat : ∀ l ∈ labels, l.wave = .flat → l.rank = 0
  hgood : ∀ l ∈ labels, ∀ w, l.wave = .pw w → w.Good
  hwaves : r.waveNames.Nodup ∧ ∀ n, n ∈ r.waveNames ↔ ∃ l ∈ labels, l.wave.text = n

/-- sum of `V_{w,k} ψ_w` over the waves of reflectivity `e`; `V i` is the amplitude with label `i`. -/
noncomputable def coherent (labels : List Label) (V : ℕ → ℂ) (psi : Wave → ℂ) (e : ℤ) (k : ℕ) : ℂ :=
  (labels.zipIdx.map fun l => if l.1.wave.refl = e ∧ l.1.rank = k then V l.2 * psi l.1.wave else 0).sum

/-- intensity of one reflectivity: waves of equal rank interfere, different ranks do not. -/
noncomputable def reflIntensity (labels : List Label) (V : ℕ → ℂ) (psi : Wave → ℂ) (K : ℕ) (e : ℤ) : ℝ :=
  ∑ k ∈ range K, Complex.normSq (coherent labels V psi e k)

/-- intensity of the flat wave. -/
noncomputable def flatIntensity (labels : List Label) (V : ℕ → ℂ) : ℝ :=
  (labels.zipIdx.map fun l => if l.1.wave = .flat then Complex.normSq (V l.2) else 0).sum

/-- intensity of the fitted model where the (normalised) decay amplitudes of the waves are `psi`. -/
noncomputable def modelIntensity (labels : List Label) (V : ℕ → ℂ) (psi : Wave → ℂ) (K : ℕ) : ℝ :=
  reflIntensity labels V psi K 1 + reflIntensity labels V psi K (-1) + flatIntensity labels V

/-- intensity of a single wave, without interference. -/
noncomputable def waveIntensity (labels : List Label) (V : ℕ → ℂ) (psi : Wave → ℂ) (w : Wave) : ℝ :=
  (labels.zipIdx.map fun l => if l.1.wave = w then Complex.normSq (V l.2 * (if w = .flat then 1 else psi w)) else 0).sum

/-- diagonal integral of a wave per event. -/
noncomputable def diag (int : IntMat) (w : Wave) : ℝ := (int.entry (String.ofList w.text) (String.ofList w.text)).re / int.nmbEvents

/-- decay amplitude of a wave divided by the square root of its integral. -/
noncomputable def normalised (int : IntMat) (A : Wave → ℕ → ℂ) (ev : ℕ) (w : Wave) : ℂ := A w ev / (Real.sqrt (diag int w) : ℂ)

/-- `N` Monte Carlo events with decay amplitudes `A`, and an integral matrix that can be used with them. -/
structure Usable (labels : List Label) (int : IntMat) (files : Name → Option AmpFile) (A : Wave → ℕ → ℂ) (N : ℕ) : Prop where
  hN : 0 < N
  hsome : ∃ l ∈ labels, l.wave ≠ .flat
  hfiles : ∀ l ∈ labels, l.wave ≠ .flat → files l.wave.text = some ((List.range N).map fun ev => [A l.wave ev])
  hint : ∀ l ∈ labels, l.wave ≠ .flat → String.ofList l.wave.text ∈ int.names
  hdiag : ∀ l ∈ labels, l.wave ≠ .flat → 0 < diag int l.wave
  hwf : int.WF
  hevents : 0 < int.nmbEvents

/-- the integral matrix is that of the events themselves. -/
structure OwnIntegral (labels : List Label) (int : IntMat) (A : Wave → ℕ → ℂ) (N : ℕ) : Prop where
  hevents : int.nmbEvents = N
  hentry : ∀ l ∈ labels, ∀ l' ∈ labels, l.wave ≠ .flat → l'.wave ≠ .flat →
    int.entry (String.ofList l.wave.text) (String.ofList l'.wave.text) = ∑ ev ∈ range N, A l.wave ev * (starRingEnd ℂ) (A l'.wave ev)

/-- the integrals stored with the fit result are those of the matrix for normalised amplitudes; the flat wave has integral 1 and does not interfere. -/
structure SameIntegral (r : FitResult) (labels : List Label) (int : IntMat) : Prop where
  hwave : ∀ (i j : ℕ) (l l' : Label), l ∈ labels → l' ∈ labels → l.wave ≠ .flat → l'.wave ≠ .flat → r.waveNames[i]? = some l.wave.text →
    r.waveNames[j]? = some l'.wave.text → r.normIntegral.entry i j =
      int.entry (String.ofList l.wave.text) (String.ofList l'.wave.text) / (int.nmbEvents : ℂ) / ((Real.sqrt (diag int l.wave) : ℂ) * (Real.sqrt (diag int l'.wave) : ℂ))
  hflat : ∀ i : ℕ, r.waveNames[i]? = some Wave.flat.text → r.normIntegral.entry i i = 1
  hherm : ∀ i j, r.normIntegral.entry j i = (starRingEnd ℂ) (r.normIntegral.entry i j)

/-- entry `n` is the first of those closest to `center` that has the best likelihood among them. -/
def IsBestFit {α : Type} (center : ℝ) (entries : List (ℝ × ℝ × α)) (n : ℕ) : Prop :=
  ∃ e, entries[n]? = some e ∧ ∀ (m : ℕ) (e' : ℝ × ℝ × α), entries[m]? = some e' → |center - e.1| ≤ |center - e'.1| ∧
    (|center - e.1| = |center - e'.1| → e.2.1 ≤ e'.2.1 ∧ (m < n → e.2.1 < e'.2.1))

end Rpwa.Wgt

/-! ### modelIntensity -/
namespace Rpwa.Wgt

open Rpwa.Fit Rpwa.Integral Finset

/-- the objects that calls of the public interface can produce. -/
inductive Reached {α κ : Type} (rx : Name → Name → Bool) (ops : AmpOps α κ) (fit : FitResult) : ModelInt α → Prop
  | new : Reached rx ops fit (ModelInt.new rx fit)
  | step (m m' : ModelInt α) (c : ModelInt.Call α) (b : Bool) : Reached rx ops fit m → m.step ops c = .ok (b, m') → Reached rx ops fit m'

/-- name and reflectivity of an amplitude survive its initialisation; every amplitude named like a wave of the fit has the reflectivity that the name
says. -/
structure LawfulOps {α κ : Type} (ops : AmpOps α κ) (labels : List Label) : Prop where
  hX : ∀ a, ops.name (ops.fromX a) = ops.name a
  hInit : ∀ a prod decay, ops.name (ops.initKin a prod decay).2 = ops.name a
  hrefl : ∀ l ∈ labels, ∀ a, ops.name a = l.wave.text → ops.refl a = l.wave.refl

/-- what is assumed about the regular expression that excludes the flat wave. -/
def NoFlatRx (rx : Name → Name → Bool) : Prop := ∀ n : Name, rx noFlatPattern n = true ↔ n ≠ "flat".toList

end Rpwa.Wgt

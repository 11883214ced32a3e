import Verif.Model.FitResult
import Mathlib.Analysis.Calculus.Deriv.Basic
import Mathlib.Analysis.Complex.Basic
/-!
# Specification for fit results (C30 – C33) -/
namespace Rpwa.Fit

open Finset

/-! ### labels of production amplitudes -/

/-- a wave name in the bracket convention `[IG,JPC,Mε]…`: isospin part, spin part, M, reflectivity, decay. -/
structure WaveId where
  ig : Name
  jpc : Name
  m : Name
  pos : Bool
  body : Name
  deriving DecidableEq

def WaveId.text (w : WaveId) : Name :=
  '[' :: (w.ig ++ ',' :: (w.jpc ++ ',' :: (w.m ++ (if w.pos then '+' else '-') :: ']' :: w.body)))

/-- the flat wave or a partial wave. -/
inductive Wave where
  | flat
  | pw (w : WaveId)
  deriving DecidableEq

instance : Inhabited Wave := ⟨.flat⟩

def Wave.text : Wave → Name
  | .flat => "flat".toList
  | .pw w => w.text

/-- reflectivity: ±1, 0 for the flat wave. -/
def Wave.refl : Wave → ℤ
  | .flat => 0
  | .pw w => if w.pos then 1 else -1

/-- production amplitude of a wave in a rank (the flat wave is listed with rank 0). -/
structure Label where
  wave : Wave
  rank : ℕ
  deriving DecidableEq

/-- `V<rank>_<wave>`, `V_flat`. -/
def Label.text (l : Label) : Name :=
  match l.wave with
  | .flat => "V_flat".toList
  | .pw w => 'V' :: ((Nat.repr l.rank).toList ++ '_' :: w.text)

/-- characters that have no special meaning in a regular expression, or that `escape` takes care of. -/
def PlainChar (c : Char) : Prop := c ∉ ['\\', '|', '(', ')', '{', Char.ofNat 0]

/-- the header fields contain no separators. -/
def WaveId.Good (w : WaveId) : Prop :=
  (∀ c ∈ w.ig, c ≠ ',' ∧ c ≠ ']') ∧ (∀ c ∈ w.jpc, c ≠ ',' ∧ c ≠ ']') ∧ (∀ c ∈ w.m, c ≠ ',' ∧ c ≠ ']') ∧ w.m ≠ [] ∧
  ∀ c ∈ w.text, PlainChar c

/-- what is assumed about the regular-expression library: a pattern made of literal characters, those of `^$.[]*+?`
preceded by a backslash, is found exactly in the strings that contain the literal text. -/
def LiteralRx (rx : Name → Name → Bool) : Prop :=
  ∀ lit : Name, (∀ c ∈ lit, PlainChar c) → ∀ s : Name,
    rx (lit.flatMap fun c => if c ∈ ['^', '$', '.', '[', ']', '*', '+', '?'] then ['\\', c] else [c]) s = true ↔ lit <:+: s

/-- the fit result contains exactly the amplitudes with the given labels, no wave name is part of the name of an amplitude
of another wave. -/
structure Labelled (r : FitResult) (labels : List Label) : Prop where
  names : r.prodAmpNames = labels.map Label.text
  count : r.nmbProdAmps = labels.length
  nodup : labels.Nodup
  flat : ∀ l ∈ labels, l.wave = .flat → l.rank = 0
  good : ∀ l ∈ labels, ∀ w, l.wave = .pw w → w.Good
  waves : ∀ n ∈ r.waveNames, ∃ l ∈ labels, l.wave.text = n
  separate : ∀ l ∈ labels, ∀ l' ∈ labels, l.wave.text <:+: l'.text → l'.wave = l.wave

/-- amplitude `V_{w,k}` (0 if the fit has none). -/
def ampOf (r : FitResult) (labels : List Label) (w : Wave) (k : ℕ) : ℂ :=
  if ⟨w, k⟩ ∈ labels then r.prodAmps (labels.idxOf ⟨w, k⟩) else 0

/-! ### error propagation -/

/-- unit vector of the real (`b = 0`) or imaginary (`b = 1`) direction. -/
def unit (b : ℕ) : ℂ := if b = 0 then 1 else Complex.I

/-- `D p b` is the derivative of `f` with respect to the real (`b = 0`) or imaginary (`b = 1`) part of production amplitude
`p`, for all `n` production amplitudes. -/
def IsGradient (f : (ℕ → ℂ) → ℝ) (V : ℕ → ℂ) (n : ℕ) (D : ℕ → ℕ → ℝ) : Prop :=
  ∀ p < n, ∀ b < 2, HasDerivAt (fun t : ℝ => f (Function.update V p (V p + t * unit b))) (D p b) 0

/-- covariance of two components of production amplitudes: entry of the parameter covariance matrix, 0 if a component is
not a parameter. -/
noncomputable def compCov (r : FitResult) (p b q b' : ℕ) : ℝ :=
  let par : ℕ → ℕ → ℤ := fun p b => if b = 0 then (r.covIdx p).1 else (r.covIdx p).2
  if 0 ≤ par p b ∧ 0 ≤ par q b' then r.cov.entry (par p b).toNat (par q b').toNat else 0

/-- `D C D'^T` over all real and imaginary parts of all production amplitudes. -/
noncomputable def propagate (r : FitResult) (D D' : ℕ → ℕ → ℝ) : ℝ :=
  ∑ p ∈ range r.nmbProdAmps, ∑ b ∈ range 2, ∑ q ∈ range r.nmbProdAmps, ∑ b' ∈ range 2, D p b * compCov r p b q b' * D' q b'

/-- the same fit result with other production amplitudes. -/
def FitResult.withAmps (r : FitResult) (V : ℕ → ℂ) : FitResult := { r with prodAmps := V }

end Rpwa.Fit

import Verif.Model.Pickers
import Mathlib.Analysis.SpecialFunctions.Integrals.Basic
/-!
# Specification: picking mass and t'

The documented t' distribution is a sum of exponentials `exp(p₀ t) + Σ cᵢ exp(pᵢ t)` with falling exponentials and non-negative coefficients, between a
minimum and a maximum. -/
namespace Rpwa.Pick

/-- the exponentials `(coefficient, slope)` that the parameter list `[p₀, c₁, p₁, c₂, p₂, …]` stands for. -/
def exponentials : List ℝ → List (ℝ × ℝ)
  | [] => []
  | p :: l => (1, p) :: go l
where go : List ℝ → List (ℝ × ℝ)
  | c :: p :: l => (c, p) :: go l
  | _ => []

/-- the sum of exponentials at `t`. -/
noncomputable def expSum (es : List (ℝ × ℝ)) (t : ℝ) : ℝ := (es.map fun e => e.1 * Real.exp (e.2 * t)).sum

/-- the t' distribution that parameters stand for (not normalized). -/
noncomputable def shape (p : List ℝ) (t : ℝ) : ℝ := expSum (exponentials p) t

/-- all exponentials fall, the coefficients are not negative and the list has no unpaired last entry. -/
def Falling (p : List ℝ) : Prop := p.length % 2 = 1 ∧ ∀ e ∈ exponentials p, 0 ≤ e.1 ∧ e.2 < 0

/-- `q` is the value below which the fraction `r` of the distribution `f` between `lo` and `hi` lies. -/
def IsQuantile (f : ℝ → ℝ) (lo hi r q : ℝ) : Prop := lo ≤ q ∧ q ≤ hi ∧ ∫ s in lo..q, f s = r * ∫ s in lo..hi, f s

/-- settings of the two ranges: `tLo0`, `tHi0` are the values used when the settings of t' are missing (or not floating-point). -/
structure RangeSettings (g : Group) (tLo0 tHi0 : ℝ) (r : Ranges) : Prop where
  hmassLo : g "massMin" = some (.float r.massLo)
  hmassHi : g "massMax" = some (.float r.massHi)
  hmass : r.massLo ≤ r.massHi
  htLo : g "tPrimeMin" = some (.float r.tLo) ∨ r.tLo = tLo0 ∧ ∀ x, g "tPrimeMin" ≠ some (.float x)
  htHi : g "tPrimeMax" = some (.float r.tHi) ∨ r.tHi = tHi0 ∧ ∀ x, g "tPrimeMax" ≠ some (.float x)
  ht : r.tLo ≤ r.tHi

/-- the parameters one entry of `tSlopes` stands for: a number, or an array of numbers. -/
def EntryParams (numbers : Bool) (c : Cfg) (p : List ℝ) : Prop :=
  if numbers then ∃ x, c = .float x ∧ p = [x] else c = .array (p.map .float)

/-- settings of slopes: at the mass of an entry the parameters of the entry. -/
structure SlopeSettings (g : Group) (numbers : Bool) (es : List (ℝ × List ℝ)) : Prop where
  hmasses : g "invariantMasses" = some (.array (es.map fun e => .float e.1))
  hslopes : ∃ cs, g "tSlopes" = some (.list cs) ∧ List.Forall₂ (EntryParams numbers) cs (es.map Prod.snd)

/-- the value of `es` at mass `m`: that of the first entry with this mass. -/
noncomputable def valueAt (es : List (ℝ × List ℝ)) (m : ℝ) : Option (List ℝ) := open Classical in (es.find? fun e => decide (e.1 = m)).map Prod.snd

end Rpwa.Pick

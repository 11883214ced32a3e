import Verif.Model.FitCov
import Mathlib.Algebra.BigOperators.Group.Finset.Basic
import Mathlib.Analysis.Calculus.Deriv.Basic
/-! # Specification of the covariance matrices of a resonance fit (C100) -/
namespace Rpwa.FitCov

open scoped BigOperators

/-- `N` is the inverse of `M` on the first `s` rows and columns. -/
def InvertsOn (s : ℕ) (N M : Mat K) [Field K] : Prop :=
  ∀ r < s, ∀ c < s, ∑ k ∈ Finset.range s, N r k * M k c = if r = c then 1 else 0

/-- `N` is the inverse of `M` on a set of rows and columns. -/
def InvertsOnSet (S : Finset ℕ) (N M : Mat K) [Field K] : Prop :=
  ∀ x ∈ S, ∀ y ∈ S, ∑ z ∈ S, N x z * M z y = if x = y then 1 else 0

/-- the function inverts matrices that have an inverse. -/
def Inverter (inv : ℕ → Mat K → Mat K) [Field K] : Prop := ∀ s M, (∃ N, InvertsOn s N M) → InvertsOn s (inv s M) M

/-- covariances that are used: rows `2k` and `2k + 1` belong to the same complex number. -/
def allowed (uc : UseCov) (x y : ℕ) : Prop :=
  match uc with
  | .full => True
  | .complexDiagonal => x / 2 = y / 2
  | .diagonal => x = y

instance (uc : UseCov) (x y : ℕ) : Decidable (allowed uc x y) := by cases uc <;> (simp only [allowed]; infer_instance)

/-- the covariances that are used, the others are zero. -/
def usedCov {K : Type} [Zero K] (uc : UseCov) (C : Mat K) : Mat K := fun x y => if allowed uc x y then C x y else 0

/-- the row of the pair `(i, j)`, `i ≤ j`, of `n` waves: pairs are stored one after another, `(0,0), (0,1), …, (1,1), …`, two rows each. -/
def pairRow (n i j : ℕ) : ℕ := 2 * (((List.range i).map fun k => n - k).sum + (j - i))

/-- nothing is stored for a wave: its elements of the spin-density matrix with all waves, their variances, and the covariances of their real and
imaginary parts are zero. -/
def SdNothing {K : Type} [Zero K] (n : ℕ) (rho : ℕ → ℕ → K × K) (cov : Mat K) (w : ℕ) : Prop :=
  ∀ j < n, rho w j = (0, 0) ∧ ∀ k < 2, ∀ l < 2, cov (pairRow n (min w j) (max w j) + k) (pairRow n (min w j) (max w j) + l) = 0

/-- the rows of the parts of the spin-density matrix of these waves: real parts and, for two different waves, imaginary parts. -/
def sdRows (n : ℕ) (kept : ℕ → Bool) : Finset ℕ :=
  (Finset.range (n * (n + 1))).filter fun x => ∃ i < n, ∃ j < n, i ≤ j ∧ kept i = true ∧ kept j = true ∧
    (x = pairRow n i j ∨ (i < j ∧ x = pairRow n i j + 1))

/-- the rows of the parts of the production amplitudes of these waves: real parts and, but for the anchor wave, imaginary parts. -/
def paRows (n anchor : ℕ) (kept : ℕ → Bool) : Finset ℕ :=
  (Finset.range (2 * n)).filter fun x => kept (x / 2) = true ∧ (x % 2 = 1 → x / 2 ≠ anchor)

/-- the rows of the parts of the production amplitudes of these waves. -/
def ampRows (n : ℕ) (kept : ℕ → Bool) : Finset ℕ := (Finset.range (2 * n)).filter fun x => kept (x / 2) = true

/-- nothing is stored for a wave: its production amplitude and its covariances are zero. -/
def PaNothing (amp : ℕ → ℂ) (cov : Mat ℝ) (w : ℕ) : Prop := amp w = 0 ∧ ∀ k < 2, ∀ l < 2, cov (2 * w + k) (2 * w + l) = 0

/-- the production amplitude of a wave is real and its imaginary part has no error. -/
def PaReal (amp : ℕ → ℂ) (cov : Mat ℝ) (w : ℕ) : Prop :=
  (amp w).im = 0 ∧ ∀ k < 2, ∀ l < 2, (k = 1 ∨ l = 1) → cov (2 * w + k) (2 * w + l) = 0

/-- a part of production amplitudes. -/
noncomputable def part (amp : ℕ → ℂ) (x : ℕ) : ℝ := if x % 2 = 0 then (amp (x / 2)).re else (amp (x / 2)).im

/-- production amplitudes with one part shifted. -/
noncomputable def shift (amp : ℕ → ℂ) (y : ℕ) (t : ℝ) : ℕ → ℂ :=
  fun w => if w = y / 2 then amp w + (if y % 2 = 0 then (t : ℂ) else t * Complex.I) else amp w

/-- production amplitudes rotated such that the anchor wave is real and positive. -/
noncomputable def rotated (anchor : ℕ) (amp : ℕ → ℂ) : ℕ → ℂ := fun w => amp w * (starRingEnd ℂ) (amp anchor) / (‖amp anchor‖ : ℂ)

/-- the change of a part of the rotated amplitudes with a part of the amplitudes. -/
noncomputable def slope (anchor : ℕ) (amp : ℕ → ℂ) (x y : ℕ) : ℝ := deriv (fun t => part (rotated anchor (shift amp y t)) x) 0

/-- the covariances of the rotated amplitudes: linear propagation of the covariances of the parts `S`. -/
noncomputable def rotatedCov (anchor : ℕ) (amp : ℕ → ℂ) (S : Finset ℕ) (C : Mat ℝ) : Mat ℝ :=
  fun x y => ∑ u ∈ S, ∑ v ∈ S, slope anchor amp x u * C u v * slope anchor amp y v

/-! ### all mass bins of a bin -/

/-- the mass bin is not before the first one and not after the last one of all waves. -/
def Used (n : ℕ) (limits : ℕ → ℕ × ℕ) (m : ℕ) : Prop := (∃ w < n, (limits w).1 ≤ m) ∧ ∃ w < n, m ≤ (limits w).2

/-- the weight matrix of the waves that are fitted in this mass bin. -/
def weight {A : Type} (b : BinIn A) (m : ℕ) : Option A := b.prepare m fun w => decide ((b.limits w).1 ≤ m ∧ m ≤ (b.limits w).2)

/-- used mass bins have a weight matrix, the others nothing. -/
def Finished {A : Type} (b : BinIn A) (out : List (Option A)) : Prop :=
  out.length = b.read.length ∧ ∀ m < b.read.length,
    (Used b.n b.limits m → ∃ W, weight b m = some W ∧ out[m]? = some (some W)) ∧ (¬ Used b.n b.limits m → out[m]? = some none)

/-- one used mass bin is refused: used mass bins before it have a weight matrix, all others have what was read. -/
def Aborted {A : Type} (b : BinIn A) (out : List (Option A)) : Prop :=
  ∃ m0, Used b.n b.limits m0 ∧ weight b m0 = none ∧
    (∀ m < m0, Used b.n b.limits m → ∃ W, weight b m = some W ∧ out[m]? = some (some W)) ∧
    ∀ m, ¬ (m < m0 ∧ Used b.n b.limits m) → out[m]? = b.read[m]?

end Rpwa.FitCov

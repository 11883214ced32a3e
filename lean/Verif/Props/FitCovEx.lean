import Verif.Props.FitCovAmp
import Mathlib.Tactic.NormNum
import Mathlib.Analysis.Complex.Norm
/-! # C100: examples -/
namespace Rpwa.FitCov

open scoped BigOperators

/-- there is a function that inverts every matrix that has an inverse. -/
theorem inverter_exists {K : Type} [Field K] : ∃ inv : ℕ → Mat K → Mat K, Inverter inv := by
  classical
  refine ⟨fun s M => if h : ∃ N, InvertsOn s N M then h.choose else zeros, ?_⟩
  intro s M h
  dsimp only
  rw [dif_pos h]
  exact h.choose_spec

/-- a diagonal matrix has an inverse. -/
theorem diagonal_inverts {K : Type} [Field K] (S : Finset ℕ) (D : Mat K) (h0 : ∀ x ∈ S, D x x ≠ 0) (h1 : ∀ x ∈ S, ∀ y ∈ S, x ≠ y → D x y = 0) :
    InvertsOnSet S (fun x y => if x = y then (D x x)⁻¹ else 0) D := by
  intro x hx y hy
  rw [Finset.sum_eq_single x]
  · dsimp only
    rw [if_pos rfl]
    by_cases h : x = y
    · subst h
      rw [if_pos rfl, inv_mul_cancel₀ (h0 x hx)]
    · rw [if_neg h, h1 x hx y hy h, mul_zero]
  · intro z _ hz
    dsimp only
    rw [if_neg (fun h => hz h.symm), zero_mul]
  · intro h
    exact absurd hx h

/-! ### spin-density matrix of three waves, the second one is not fitted -/

/-- all errors are the same. -/
def exCov : Mat ℚ := fun x y => if x = y then 2 else 0

def exRange : ℕ → Bool := fun w => w != 1

theorem ex_sd_used (x y : ℕ) : usedCov .complexDiagonal exCov x y = exCov x y := by
  unfold usedCov
  by_cases h : allowed .complexDiagonal x y
  · rw [if_pos h]
  · rw [if_neg h]
    unfold exCov
    rw [if_neg]
    rintro rfl
    exact h rfl

theorem ex_sd_rows : sdRows 3 exRange = {0, 4, 5, 10} := by decide +kernel

theorem ex_sd (inv : ℕ → Mat ℚ → Mat ℚ) (hinv : Inverter inv) : ∃ W, sdPrepare inv .complexDiagonal 3 exRange (fun _ _ => (1, 0)) exCov = some W ∧
    W 0 0 = 1 / 2 ∧ W 5 5 = 1 / 2 ∧ W 4 5 = 0 ∧ W 2 2 = 0 ∧ W 1 1 = 0 := by
  cases hW : sdPrepare inv .complexDiagonal 3 exRange (fun _ _ => (1, 0)) exCov with
  | none =>
    exfalso
    obtain ⟨w, hw, h, _⟩ := (sd_refused _ _ _ _ _ _).1 hW
    have := (h 0 (by omega)).1
    cases (Prod.mk.inj this).1
  | some W =>
    have h := sd_inverse inv hinv .complexDiagonal 3 exRange (fun _ _ => (1, 0)) exCov W hW ⟨_, diagonal_inverts _ _
      (fun x _ => by rw [ex_sd_used]; unfold exCov; rw [if_pos rfl]; norm_num)
      (fun x _ y _ hxy => by rw [ex_sd_used]; unfold exCov; rw [if_neg hxy])⟩
    have ho := sd_outside inv .complexDiagonal 3 exRange (fun _ _ => (1, 0)) exCov W hW
    rw [ex_sd_rows] at h ho
    have key : ∀ x ∈ ({0, 4, 5, 10} : Finset ℕ), ∀ y ∈ ({0, 4, 5, 10} : Finset ℕ), W x y = if x = y then 1 / 2 else 0 := by
      intro x hx y hy
      have h1 := h x hx y hy
      rw [Finset.sum_eq_single y] at h1
      · rw [ex_sd_used] at h1
        unfold exCov at h1
        rw [if_pos rfl] at h1
        by_cases hxy : x = y
        · rw [if_pos hxy] at h1 ⊢
          linarith only [h1]
        · rw [if_neg hxy] at h1 ⊢
          linarith only [h1]
      · intro z _ hz
        rw [ex_sd_used]
        unfold exCov
        rw [if_neg hz, mul_zero]
      · intro h2
        exact absurd hy h2
    refine ⟨W, rfl, ?_, ?_, ?_, ?_, ?_⟩
    · rw [key 0 (by decide) 0 (by decide), if_pos rfl]
    · rw [key 5 (by decide) 5 (by decide), if_pos rfl]
    · rw [key 4 (by decide) 5 (by decide), if_neg (by decide)]
    · exact ho 2 2 (by decide)
    · exact ho 1 1 (by decide)

/-! ### production amplitudes of two waves, the anchor wave is not real -/

noncomputable def exAmp : ℕ → ℂ := fun w => if w = 0 then ⟨3, 4⟩ else ⟨1, 2⟩

noncomputable def exUnit : Mat ℝ := fun x y => if x = y then 1 else 0

theorem ex_anchor : exAmp 0 ≠ 0 := by
  intro h
  have := congrArg Complex.re h
  norm_num [exAmp] at this

theorem ex_norm : ‖exAmp 0‖ = 5 := by
  rw [norm_eq]
  norm_num [exAmp]
  rw [show (25 : ℝ) = 5 ^ 2 by norm_num, Real.sqrt_sq (by norm_num)]

theorem ex_not_real (w : ℕ) : ¬ PaReal exAmp exUnit w := by
  intro h
  have := h.2 1 (by omega) 1 (by omega) (by omega)
  unfold exUnit at this
  rw [if_pos rfl] at this
  norm_num at this

theorem ex_slope (x : ℕ) (h : x / 2 = 0 → x % 2 = 0) : slope 0 exAmp x x = 3 / 5 := by
  have h1 := slope_eq 0 exAmp ex_anchor (x / 2) (x % 2) (x / 2) (x % 2) (by omega) (by omega) h
  rw [show 2 * (x / 2) + x % 2 = x by omega] at h1
  rw [h1]
  unfold jac
  dsimp only
  rw [ex_norm, show (exAmp 0).re = 3 by rfl]
  by_cases h2 : x / 2 = 0
  · rw [if_pos h2, if_pos h2, if_pos (h h2)]
  · rw [if_neg h2, if_pos rfl]
    by_cases h3 : x % 2 = 0
    · rw [if_pos h3, if_pos h3]
    · rw [if_neg h3, if_neg h3]

theorem ex_rotated_cov (x : ℕ) (h : x / 2 = 0 → x % 2 = 0) (hx : x < 4) : 0 < rotatedCov 0 exAmp (ampRows 2 fun _ => true) exUnit x x := by
  unfold rotatedCov
  have h1 : ∀ u ∈ ampRows 2 (fun _ => true), (∑ v ∈ ampRows 2 (fun _ => true), slope 0 exAmp x u * exUnit u v * slope 0 exAmp x v) = slope 0 exAmp x u ^ 2 := by
    intro u hu
    rw [Finset.sum_eq_single u]
    · unfold exUnit
      rw [if_pos rfl]
      ring
    · intro v _ hv
      unfold exUnit
      rw [if_neg (fun h => hv h.symm)]
      ring
    · intro h2
      exact absurd hu h2
  rw [Finset.sum_congr rfl h1]
  apply Finset.sum_pos'
  · intro u _
    positivity
  · refine ⟨x, ?_, ?_⟩
    · unfold ampRows
      simp only [Finset.mem_filter, Finset.mem_range, and_true]
      omega
    · rw [ex_slope x h]
      norm_num

theorem ex_pa (inv : ℕ → Mat ℝ → Mat ℝ) (hinv : Inverter inv) :
    ∃ amp' W, paPrepare inv .diagonal 2 0 (fun _ => true) exAmp exUnit = some (amp', W) ∧ amp' 0 = 5 ∧ W 1 1 = 0 ∧
      InvertsOnSet (paRows 2 0 fun _ => true) W (usedCov .diagonal (rotatedCov 0 exAmp (ampRows 2 fun _ => true) exUnit)) := by
  cases hW : paPrepare inv .diagonal 2 0 (fun _ => true) exAmp exUnit with
  | none =>
    exfalso
    have hn : ∀ w, ¬ PaNothing exAmp exUnit w := by
      intro w h
      have := h.2 1 (by omega) 1 (by omega)
      unfold exUnit at this
      rw [if_pos rfl] at this
      norm_num at this
    rcases (pa_refused inv .diagonal 2 0 (by omega) _ _ _).1 hW with ⟨w, _, h, _⟩ | h | ⟨w, _, _, _, h⟩
    · exact hn w h
    · exact hn 0 h
    · exact ex_not_real w h
  | some p =>
    obtain ⟨amp', W⟩ := p
    refine ⟨amp', W, rfl, ?_, ?_, ?_⟩
    · rw [(pa_amplitudes inv .diagonal 2 0 (by omega) _ exAmp amp' exUnit W hW ex_anchor).2 (ex_not_real 0), (rotated_spec 0 exAmp ex_anchor).1, ex_norm]
      norm_num
    · exact pa_outside inv .diagonal 2 0 (by omega) _ exAmp amp' exUnit W hW 1 1 (by decide)
    · apply pa_inverse_rotated inv hinv .diagonal 2 0 (by omega) _ exAmp amp' exUnit W hW ex_anchor (ex_not_real 0)
      refine ⟨_, diagonal_inverts _ _ ?_ ?_⟩
      · intro x hx
        unfold usedCov
        rw [if_pos (by rfl)]
        unfold paRows at hx
        simp only [Finset.mem_filter, Finset.mem_range] at hx
        exact ne_of_gt (ex_rotated_cov x (by omega) (by omega))
      · intro x _ y _ hxy
        unfold usedCov
        rw [if_neg (show ¬ allowed .diagonal x y from hxy)]

/-- two mass bins, the second one is not used. -/
theorem ex_bins : prepareBin 2 1 (fun _ => (0, 0)) (fun m _ => some m) = some [some 0, none] := by rfl

end Rpwa.FitCov

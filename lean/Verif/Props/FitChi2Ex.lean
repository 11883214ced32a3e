import Verif.Props.FitChi2
import Verif.Props.FitCovEx
import Verif.Props.ResonanceFitEx
/-! # C102: examples -/
namespace Rpwa.FitData

open Rpwa.FitCov
open Rpwa.ResFit (Fn Params Input Cfg Built St)
open Rpwa.ResFit.Ex (inp cfg mdl dat built sep sep_limits)
open scoped BigOperators

/-- all errors are the same. -/
def exC : Mat ℝ := fun x y => if x = y then 2 else 0

theorem exC_used (x y : ℕ) : usedCov .complexDiagonal exC x y = exC x y := by
  unfold usedCov
  by_cases h : allowed .complexDiagonal x y
  · rw [if_pos h]
  · rw [if_neg h]
    unfold exC
    rw [if_neg]
    rintro rfl
    exact h rfl

/-- weights of the mass bins. -/
noncomputable def exW (inv : ℕ → Mat ℝ → Mat ℝ) (b m : ℕ) : Mat ℝ :=
  (sdPrepare inv .complexDiagonal ((Fn.mk (mdl 1) (dat 1 sep) false).nrWaves b) (fitted ⟨mdl 1, dat 1 sep, false⟩ b m) (fun _ _ => (1, 0)) exC).getD zeros

/-- two bins with two waves each that are fitted in separate mass ranges; all elements of the spin-density matrix are 1. -/
noncomputable def exF (inv : ℕ → Mat ℝ → Mat ℝ) : Fn :=
  ⟨mdl 1, { dat 1 sep with rho := fun _ _ _ _ => 1, rhoCovInv := fun b m => invArray ((Fn.mk (mdl 1) (dat 1 sep) false).nrWaves b) (exW inv b m),
                           useCov := .complexDiagonalOnly }, false⟩

theorem ex_built (inv : ℕ → Mat ℝ → Mat ℝ) : Built (inp 1) cfg sep (exF inv) := ⟨(built 1 sep false).model, (built 1 sep false).limits, (built 1 sep false).masses⟩

/-- the first wave is fitted in the first mass bin, the second one is not. -/
theorem ex_fitted (inv : ℕ → Mat ℝ → Mat ℝ) : fitted (exF inv) 0 0 0 = true ∧ fitted (exF inv) 0 0 1 = false := by
  have h0 : (exF inv).D.limits 0 0 0 = (0, 0) := sep_limits (by omega) 0 0 1
  have h1 : (exF inv).D.limits 0 1 1 = (2, 2) := sep_limits (by omega) 1 1 1
  constructor
  · rw [fitted_iff]
    unfold ResFit.Spec.inLimits
    rw [h0]
    exact ⟨Nat.le_refl _, Nat.le_refl _⟩
  · rw [← Bool.not_eq_true, fitted_iff]
    unfold ResFit.Spec.inLimits
    rw [h1]
    intro h
    have := h.1
    omega

theorem ex_loaded (inv : ℕ → Mat ℝ → Mat ℝ) : LoadedRho (exF inv) .complexDiagonal inv (fun _ _ _ _ => (1, 0)) (fun _ _ => exC) := by
  refine ⟨rfl, exW inv, ?_, ?_, ?_⟩
  · intro b _ m _
    cases h : sdPrepare inv .complexDiagonal ((exF inv).nrWaves b) (fitted (exF inv) b m) (fun _ _ => ((1 : ℝ), (0 : ℝ))) exC with
    | none =>
      exfalso
      obtain ⟨w, hw, h1, _⟩ := (sd_refused _ _ _ _ _ _).1 h
      have := (Prod.mk.inj (h1 w hw).1).1
      norm_num at this
    | some W =>
      have : exW inv b m = W := by
        unfold exW
        change (sdPrepare inv .complexDiagonal ((exF inv).nrWaves b) (fitted (exF inv) b m) (fun _ _ => ((1 : ℝ), (0 : ℝ))) exC).getD zeros = W
        rw [h]
        rfl
      rw [this]
  · intro b _ m _ i _ j _
    rfl
  · intro b _ m _ i _ j _ k l
    rfl

theorem ex_inverse (inv : ℕ → Mat ℝ → Mat ℝ) (b m : ℕ) :
    ∃ V, InvertsOnSet (sdRows ((exF inv).nrWaves b) (fitted (exF inv) b m)) V (usedCov .complexDiagonal exC) :=
  ⟨_, diagonal_inverts _ _ (fun x _ => by rw [exC_used]; unfold exC; rw [if_pos rfl]; norm_num)
    (fun x _ y _ hxy => by rw [exC_used]; unfold exC; rw [if_neg hxy])⟩

/-- **C102** for this fit: in the first mass bin the chi-square is half the square of the difference of the intensity of the first wave. -/
theorem ex_chiSquare (inv : ℕ → Mat ℝ → Mat ℝ) (hinv : Inverter inv) (hs : List (ℕ → ℝ)) (par : ℕ → ℝ) :
    ∃ (st : St) (c : ℝ) (v : ℕ → ℕ → ℝ), ResFit.Spec.after (exF inv) St.empty hs = some st ∧ ((exF inv).chiSquare st par).map (fun r => r.1) = some c ∧
      c = ∑ b ∈ Finset.range 2, ∑ m ∈ Finset.range ((inp 1).nrMassOf b), v b m ∧
      v 0 0 = (rhoDiff (exF inv) (ResFit.Spec.paramsOf (mdl 1) par) 0 0 0 0).re ^ 2 / 2 := by
  obtain ⟨st, c, v, h1, h2, h3, h4⟩ := chiSquare_leastSquares (ex_built inv) rfl .complexDiagonal (fun h => by cases h) inv hinv _ _ (ex_loaded inv)
    (fun b _ m => ex_inverse inv b m) hs par
  refine ⟨st, c, v, h1, h2, h3, ?_⟩
  obtain ⟨Δ, h5, W, h6, h7⟩ := h4 0 (by show 0 < 2; omega) 0 (by show 0 < 3; omega)
  have hrows : sdRows ((exF inv).nrWaves 0) (fitted (exF inv) 0 0) = {0} := by
    obtain ⟨e0, e1⟩ := ex_fitted inv
    have hn : (exF inv).nrWaves 0 = 2 := rfl
    rw [hn]
    have : sdRows 2 (fitted (exF inv) 0 0) = sdRows 2 (fun w => w == 0) := by
      unfold sdRows
      apply Finset.filter_congr
      intro x _
      have key : ∀ w < 2, fitted (exF inv) 0 0 w = (w == 0) := by
        intro w hw
        rcases w with _ | _ | w
        · exact e0
        · exact e1
        · omega
      constructor
      · rintro ⟨i, hi, j, hj, h, a, b, d⟩
        exact ⟨i, hi, j, hj, h, (key i hi).symm.trans a, (key j hj).symm.trans b, d⟩
      · rintro ⟨i, hi, j, hj, h, a, b, d⟩
        exact ⟨i, hi, j, hj, h, (key i hi).trans a, (key j hj).trans b, d⟩
    rw [this]
    decide +kernel
  rw [hrows] at h6 h7
  have hW := h6 0 (Finset.mem_singleton_self 0) 0 (Finset.mem_singleton_self 0)
  rw [Finset.sum_singleton, if_pos rfl, exC_used] at hW
  rw [Finset.sum_singleton, Finset.sum_singleton] at h7
  have hC : exC 0 0 = 2 := if_pos rfl
  rw [hC] at hW
  have hr := (h5 0 0 (Nat.le_refl _) (by show 0 < 2; omega)).1
  have hp : pairRow ((exF inv).nrWaves 0) 0 0 = 0 := rfl
  rw [hp] at hr
  have hW' : W 0 0 = 1 / 2 := by linarith only [hW]
  rw [h7, hr, hW']
  have : (exF inv).M = mdl 1 := rfl
  rw [this]
  ring

/-! ### production amplitudes: the first wave is real, the second one is not -/

/-- the imaginary part of the anchor wave has no error. -/
noncomputable def exCA : Mat ℝ := fun x y => if x = y ∧ x ≠ 1 then 1 else 0

noncomputable def exA : ℕ → ℂ := fun w => if w = 0 then 1 else ⟨1, 1⟩

theorem exA_real : PaReal exA exCA 0 := by
  constructor
  · unfold exA
    rw [if_pos rfl]
    rfl
  · intro k hk l hl h
    unfold exCA
    rw [if_neg]
    rintro ⟨h1, h2⟩
    omega

/-- a fit of production amplitudes whose data have been prepared. -/
theorem ex_loaded_amps (inv : ℕ → Mat ℝ → Mat ℝ) : ∃ F : Fn, Built (inp 1) cfg sep F ∧ F.useProdAmps = true ∧
    LoadedAmps F .full inv (fun _ _ => exA) (fun _ _ => exCA) ∧ (∀ b, F.M.anchorWave.getD b 0 = 0) ∧
    (∀ b m, ∃ V, InvertsOnSet (paRows (F.nrWaves b) (F.M.anchorWave.getD b 0) (fitted F b m)) V (usedCov .full (dataCov F (fun _ _ => exA) (fun _ _ => exCA) b m))) := by
  classical
  have hanchor : ∀ b, (mdl 1).anchorWave.getD b 0 = 0 := by
    intro b
    rcases b with _ | _ | b
    · rfl
    · rfl
    · rfl
  let F0 : Fn := ⟨mdl 1, dat 1 sep, true⟩
  let R : ℕ → ℕ → (ℕ → ℂ) × Mat ℝ := fun b m => (paPrepare inv .full (F0.nrWaves b) 0 (fitted F0 b m) exA exCA).getD (exA, zeros)
  refine ⟨⟨mdl 1, { dat 1 sep with amps := fun b m => (R b m).1, ampsCovInv := fun b m => (R b m).2, useCov := .full }, true⟩,
    ⟨(built 1 sep false).model, (built 1 sep false).limits, (built 1 sep false).masses⟩, rfl, ⟨?_, fun b m => (R b m).2, ?_, fun _ _ _ _ _ _ _ _ => rfl⟩, hanchor, ?_⟩
  · intro b _ m _
    rw [hanchor]
    exact one_ne_zero
  · intro b hb m _
    rw [hanchor]
    change paPrepare inv .full (F0.nrWaves b) 0 (fitted F0 b m) exA exCA = some (R b m)
    have hn : F0.nrWaves b = 2 := by
      have hb : b < 2 := hb
      rcases b with _ | _ | b
      · rfl
      · rfl
      · omega
    cases h : paPrepare inv .full (F0.nrWaves b) 0 (fitted F0 b m) exA exCA with
    | some A =>
      have : R b m = A := by
        change (paPrepare inv .full (F0.nrWaves b) 0 (fitted F0 b m) exA exCA).getD (exA, zeros) = A
        rw [h]
        rfl
      rw [this]
    | none =>
      exfalso
      have hne : ∀ w, ¬ PaNothing exA exCA w := by
        intro w hw
        have h1 := hw.1
        unfold exA at h1
        by_cases h0 : w = 0
        · rw [if_pos h0] at h1
          exact one_ne_zero h1
        · rw [if_neg h0] at h1
          exact one_ne_zero (congrArg Complex.re h1)
      rcases (pa_refused inv .full (F0.nrWaves b) 0 (by omega) _ exA exCA).1 h with ⟨w, _, h1, _⟩ | h1 | ⟨w, _, h1, _, h2⟩
      · exact hne w h1
      · exact hne 0 h1
      · have h3 := h2.1
        unfold exA at h3
        rw [if_neg h1] at h3
        exact one_ne_zero h3
  · intro b m
    have hd : dataCov ⟨mdl 1, { dat 1 sep with amps := fun b m => (R b m).1, ampsCovInv := fun b m => (R b m).2, useCov := .full }, true⟩
        (fun _ _ => exA) (fun _ _ => exCA) b m = exCA := by
      unfold dataCov
      rw [hanchor, if_pos exA_real]
    rw [hd, hanchor]
    have hu : ∀ x y, usedCov .full exCA x y = exCA x y := fun x y => if_pos trivial
    refine ⟨_, diagonal_inverts _ _ ?_ ?_⟩
    · intro x hx
      have h1 := (Finset.mem_filter.1 hx).2.2
      rw [hu]
      unfold exCA
      rw [if_pos ⟨rfl, fun h => by subst h; exact h1 rfl rfl⟩]
      exact one_ne_zero
    · intro x _ y _ hxy
      rw [hu]
      unfold exCA
      rw [if_neg fun h => hxy h.1]

/-- **C102** for this fit. -/
theorem ex_chiSquare_amps (inv : ℕ → Mat ℝ → Mat ℝ) (hinv : Inverter inv) (par : ℕ → ℝ) : ∃ F : Fn, F.useProdAmps = true ∧
    ∃ (st : St) (c : ℝ), ResFit.Spec.after F St.empty [par] = some st ∧ (F.chiSquare st par).map (fun r => r.1) = some c := by
  obtain ⟨F, h1, h2, h3, _, h4⟩ := ex_loaded_amps inv
  obtain ⟨st, c, _, h5, h6, _⟩ := chiSquare_leastSquares_amps h1 h2 .full inv hinv _ _ h3 (fun b _ m => h4 b m) [par] par
  exact ⟨F, h2, st, c, h5, h6⟩

end Rpwa.FitData

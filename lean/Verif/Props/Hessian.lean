import Verif.Lemmas.Hessian
import Verif.Props.Likelihood
/-!
# C25: the Hessian is the matrix of second derivatives -/
namespace Rpwa.Lik

open Finset Complex

/-- **C25.** For two parameters that are not fixed, the entry of the Hessian is the derivative of the gradient component with respect to
the other parameter (by C24 the mixed second derivative of the likelihood). -/
theorem hessian_is_second_derivative (L : LikData) (wl : WaveList) (d : ParData) (m : ℝ) (hm : L.Matches wl d m) (hI : L.AccHermitian)
    (par out : ℕ → ℝ) (hdef : L.DefinedAt par) (k l : ℕ) (hk : k < d.nmbPars) (hl' : l < d.nmbPars)
    (hfk : LikData.fixedAt d k = false) (hfl : LikData.fixedAt d l = false) (hprior : L.PriorDefinedAt d par k) :
    HasDerivAt (fun x => L.gradient d (Function.update par l x) out k) (L.hessian d par k l) (par l) := by
  obtain ⟨comp, hl⟩ := layout_of_matches L hm
  obtain ⟨F, hF⟩ := hl.fixed
  have hself : Function.update par l (par l) = par := Function.update_eq_self l par
  rw [hl.nmb] at hk hl'
  rw [hessian_entries hl hF]
  unfold LikData.gradient
  have hsig : ∀ ev < L.nmbEvents, L.sigma (copyFromParArray L.rank L.nW (Function.update par l (par l))).1
      (copyFromParArray L.rank L.nW (Function.update par l (par l))).2 ev ≠ 0 := by rw [hself]; exact hdef.intensity
  by_cases hkf : k = comp.length
  · subst hkf
    simp only [hl.toFlat]
    by_cases hlf : l = comp.length
    · subst hlf
      obtain ⟨h1, h2, h3⟩ := curve_of_flat L hl par
      refine (derivativeFlat_deriv L h2 h3 hsig).congr_deriv ?_
      simp only [hself]
      rw [List.getElem?_eq_none (le_refl _)]
      simp only [and_self, if_true]
      unfold LikData.hessianFlat
      refine congrArg₂ (· + ·) (sum_congr rfl fun ev _ => ?_) (by ring)
      have : sigma' L (copyFromParArray L.rank L.nW par).1 (fun _ => 0) (copyFromParArray L.rank L.nW par).2 1 ev
          = 2 * (copyFromParArray L.rank L.nW par).2 := by
        rw [sigma'_eq]; simp
      rw [this]
      unfold LikData.amps LikData.flat
      ring
    · have hlt : l < comp.length := by omega
      have hl2 : comp[l]? = some comp[l] := List.getElem?_eq_getElem hlt
      have hfree := (hl.free comp[l]).1 (List.getElem_mem hlt)
      refine (derivativeFlat_deriv L (curve_of_par L hl par hl2) (flat_of_par L hl par hl2) hsig).congr_deriv ?_
      rw [List.getElem?_eq_none (le_refl _), hl2]
      simp only [hself, true_and]
      have hFl := hF l _ hl2
      rw [hfl] at hFl
      rw [if_pos hFl.symm]
      simp only [sigma'_dir L _ _ _ comp[l] ⟨hfree.1, hfree.2.1, hfree.2.2.1⟩]
      unfold LikData.flatTerms
      rw [part_sum]
      simp only [part_ofReal_mul, mul_zero, zero_mul, add_zero]
      refine sum_congr rfl fun ev _ => ?_
      unfold LikData.amps LikData.flat
      ring
  · have hkt : k < comp.length := by omega
    have hk2 : comp[k]? = some comp[k] := List.getElem?_eq_getElem hkt
    have hfree := (hl.free comp[k]).1 (List.getElem_mem hkt)
    have hFk := hF k _ hk2
    rw [hfk] at hFk
    have hpart : ∀ {g : ℝ → ℂ} {g' : ℂ} {t : ℝ}, HasDerivAt g g' t → HasDerivAt (fun x => part (g x) comp[k].2) (part g' comp[k].2) t := by
      intro g g' t h
      unfold part
      cases comp[k].2
      · simpa using hasDerivAt_im h
      · simpa using hasDerivAt_re h
    simp only [hl.toPar _ _ _ k _ hk2]
    rw [hk2]
    by_cases hlf : l = comp.length
    · subst hlf
      obtain ⟨h1, h2, h3⟩ := curve_of_flat L hl par
      refine (hpart (derivatives_deriv L h2 h3 hsig hdef.width comp[k].1)).congr_deriv ?_
      simp only [hself]
      rw [List.getElem?_eq_none (le_refl _)]
      simp only [true_and]
      rw [if_pos hFk.symm]
      unfold deriv2 LikData.flatTerms
      have hp0 : prior2 L (copyFromParArray L.rank L.nW par).1 (fun _ => 0) comp[k].1 = 0 := by
        unfold prior2; split <;> simp
      rw [hp0]
      simp only [zero_mul, sum_const_zero, add_zero, sub_zero, part_sum]
      refine sum_congr rfl fun ev _ => ?_
      have hs : sigma' L (copyFromParArray L.rank L.nW par).1 (fun _ => 0) (copyFromParArray L.rank L.nW par).2 1 ev
          = 2 * (copyFromParArray L.rank L.nW par).2 := by
        rw [sigma'_eq]; simp
      have ha : L.ampSum (fun _ => 0) ev comp[k].1.1 comp[k].1.2.1 = 0 := by simp [LikData.ampSum]
      rw [hs, ha, zero_mul, mul_zero, add_zero, part_ofReal_mul, part_ofReal_mul]
      unfold LikData.amps LikData.flat
      ring
    · have hlt : l < comp.length := by omega
      have hl2 : comp[l]? = some comp[l] := List.getElem?_eq_getElem hlt
      have hfree' := (hl.free comp[l]).1 (List.getElem_mem hlt)
      have hFl := hF l _ hl2
      rw [hfl] at hFl
      refine (hpart (derivatives_deriv L (curve_of_par L hl par hl2) (flat_of_par L hl par hl2) hsig hdef.width comp[k].1)).congr_deriv ?_
      simp only [hself]
      rw [hl2]
      simp only
      rw [if_pos ⟨hFk.symm, hFl.symm⟩]
      refine deriv2_dir L hI _ _ comp[k] comp[l] ⟨hfree.1, hfree.2.1, hfree.2.2.1⟩ ⟨hfree'.1, hfree'.2.1, hfree'.2.2.1⟩ ?_
      intro hp
      refine ⟨hdef.width hp, hprior hp comp[k].1 hfree.1 hfree.2.1 hfree.2.2.1 ?_⟩
      obtain ⟨m1, m2⟩ := hl.map comp[k].1 hfree.1 hfree.2.1 hfree.2.2.1
      cases hb : comp[k].2
      · right; rw [m2, hk2, ← hb]
      · left; rw [m1, hk2, ← hb]

/-- **C25.** The same statement without reference to the gradient: the entry is the mixed second partial derivative of the likelihood
function. -/
theorem hessian_is_second_derivative_of_likelihood (L : LikData) (wl : WaveList) (d : ParData) (m : ℝ) (hm : L.Matches wl d m)
    (hI : L.AccHermitian) (par : ℕ → ℝ) (hdef : L.DefinedAt par) (k l : ℕ) (hk : k < d.nmbPars) (hl' : l < d.nmbPars)
    (hfk : LikData.fixedAt d k = false) (hfl : LikData.fixedAt d l = false) (hprior : L.PriorDefinedAt d par k) :
    HasDerivAt (fun x => deriv (fun y => L.doEval (Function.update (Function.update par l x) k y)) (Function.update par l x k))
      (L.hessian d par k l) (par l) := by
  refine (hessian_is_second_derivative L wl d m hm hI par (fun _ => 0) hdef k l hk hl' hfk hfl hprior).congr_of_eventuallyEq ?_
  obtain ⟨comp, hl⟩ := layout_of_matches L hm
  have hself : Function.update par l (par l) = par := Function.update_eq_self l par
  have hcurve : ∃ E f', Curve (fun x => (copyFromParArray L.rank L.nW (Function.update par l x)).1) E (par l) ∧
      HasDerivAt (fun x => (copyFromParArray L.rank L.nW (Function.update par l x)).2) f' (par l) := by
    rw [hl.nmb] at hl'
    by_cases hlf : l = comp.length
    · subst hlf
      obtain ⟨_, h2, h3⟩ := curve_of_flat L hl par
      exact ⟨_, _, h2, h3⟩
    · have hl2 : comp[l]? = some comp[l] := List.getElem?_eq_getElem (by omega)
      exact ⟨_, _, curve_of_par L hl par hl2, flat_of_par L hl par hl2⟩
  obtain ⟨E, f', hV, hf⟩ := hcurve
  have h1 : ∀ᶠ x in nhds (par l), ∀ ev ∈ range L.nmbEvents, L.sigma (L.amps (Function.update par l x)) (L.flat (Function.update par l x)) ev ≠ 0 := by
    rw [Filter.eventually_all_finset]
    intro ev hev
    refine (sigma_deriv L hV hf ev).continuousAt.eventually_ne ?_
    rw [hself]
    exact hdef.intensity ev (mem_range.1 hev)
  have h2 : ∀ᶠ x in nhds (par l), ∀ s ∈ (slots L.rank L.nW).toFinset, L.amps par s ≠ 0 → L.amps (Function.update par l x) s ≠ 0 := by
    rw [Filter.eventually_all_finset]
    intro s _
    by_cases h0 : L.amps par s = 0
    · exact Filter.Eventually.of_forall fun x h => absurd h0 h
    · have : ContinuousAt (fun x => L.amps (Function.update par l x) s) (par l) := (hV s).continuousAt
      have hev := this.eventually_ne (y := 0) (by simp only [hself]; exact h0)
      exact hev.mono fun x hx _ => hx
  filter_upwards [h1, h2] with x hx1 hx2
  refine (gradient_is_derivative L wl d m hm hI (Function.update par l x) (fun _ => 0) ⟨fun ev hev => hx1 ev (mem_range.2 hev), hdef.width⟩ k hk ?_).deriv
  intro hp s h1 h2 h3 h4
  exact hx2 s (by rw [List.mem_toFinset, mem_slots]; exact ⟨h1, h2, h3⟩) (hprior hp s h1 h2 h3 h4)

/-- **C25, fixed parameters.** Rows and columns of fixed parameters vanish. -/
theorem hessian_fixed_zero (L : LikData) (wl : WaveList) (d : ParData) (m : ℝ) (hm : L.Matches wl d m) (par : ℕ → ℝ) (k l : ℕ)
    (hk : k < d.nmbPars) (hl' : l < d.nmbPars) (hf : LikData.fixedAt d k = true ∨ LikData.fixedAt d l = true) :
    L.hessian d par k l = 0 := by
  obtain ⟨comp, hl⟩ := layout_of_matches L hm
  obtain ⟨F, hF⟩ := hl.fixed
  rw [hessian_entries hl hF]
  have key : ∀ i, i < d.nmbPars → LikData.fixedAt d i = true → ∃ c, comp[i]? = some c ∧ F c.1 = true := by
    intro i hi hfi
    rw [hl.nmb] at hi
    have hne : i ≠ comp.length := by
      rintro rfl
      rw [hl.flatFree] at hfi; cases hfi
    have hlt : i < comp.length := by omega
    exact ⟨comp[i], List.getElem?_eq_getElem hlt, by rw [← hF i _ (List.getElem?_eq_getElem hlt)]; exact hfi⟩
  rcases hf with hf | hf
  · obtain ⟨c, hc, hcF⟩ := key k hk hf
    rw [hc]
    cases comp[l]? <;> simp [hcF]
  · obtain ⟨c, hc, hcF⟩ := key l hl' hf
    rw [hc]
    cases comp[k]? <;> simp [hcF]

/-- **C25, symmetry.** The Hessian is symmetric, at every parameter array. -/
theorem hessian_symmetric (L : LikData) (wl : WaveList) (d : ParData) (m : ℝ) (hm : L.Matches wl d m) (hI : L.AccHermitian)
    (par : ℕ → ℝ) (k l : ℕ) : L.hessian d par k l = L.hessian d par l k := by
  obtain ⟨comp, hl⟩ := layout_of_matches L hm
  obtain ⟨F, hF⟩ := hl.fixed
  rw [hessian_entries hl hF, hessian_entries hl hF]
  cases hk : comp[k]? with
  | none =>
    cases hl2 : comp[l]? with
    | none => simp only [and_comm]
    | some c' => rfl
  | some c =>
    cases hl2 : comp[l]? with
    | none => rfl
    | some c' =>
      simp only
      by_cases h : F c.1 = false ∧ F c'.1 = false
      · rw [if_pos h, if_pos ⟨h.2, h.1⟩]
        exact hessEntry_symm L hI _ _ c c'
      · rw [if_neg h, if_neg (fun h' => h ⟨h'.2, h'.1⟩)]

/-- Non-vacuity: the hypotheses of the theorems hold for the two parameters of `lik_example`. -/
example : ∃ (L : LikData) (wl : WaveList) (d : ParData) (par : ℕ → ℝ), L.Matches wl d 1 ∧ L.AccHermitian ∧ L.DefinedAt par ∧
    0 < d.nmbPars ∧ 1 < d.nmbPars ∧ LikData.fixedAt d 0 = false ∧ LikData.fixedAt d 1 = false ∧ L.PriorDefinedAt d par 0 := by
  obtain ⟨L, wl, d, par, h1, h2, h3, _, h5, _, h7⟩ := lik_example
  exact ⟨L, wl, d, par, h1, h2, h3, by omega, by omega, (h7 0 (by omega)).2, (h7 1 (by omega)).2, (h7 0 (by omega)).1⟩

end Rpwa.Lik

import Verif.Lemmas.Likelihood
/-!
# C24: the gradient is the derivative of the likelihood -/
namespace Rpwa.Lik

open Finset Complex

/-- **C24.** At every parameter array at which the likelihood is defined, component `k` of the gradient is the partial derivative of
the likelihood with respect to parameter `k`: for all ranks, wave sets, data, acceptance matrices, normalisations and priors. -/
theorem gradient_is_derivative (L : LikData) (wl : WaveList) (d : ParData) (m : ℝ) (hm : L.Matches wl d m) (hI : L.AccHermitian)
    (par out : ℕ → ℝ) (hdef : L.DefinedAt par) (k : ℕ) (hk : k < d.nmbPars) (hprior : L.PriorDefinedAt d par k) :
    HasDerivAt (fun x => L.doEval (Function.update par k x)) (L.gradient d par out k) (par k) := by
  obtain ⟨comp, hl⟩ := layout_of_matches L hm
  have hself : Function.update par k (par k) = par := Function.update_eq_self k par
  unfold LikData.doEval LikData.gradient
  rw [hl.nmb] at hk
  by_cases hkf : k = comp.length
  · subst hkf
    obtain ⟨h1, h2, h3⟩ := curve_of_flat L hl par
    have := eval_deriv L hI h2 h3 (by simp only [hself]; exact hdef.intensity) (fun hp => ⟨hdef.width hp, fun r _ e _ w _ hE => absurd rfl hE⟩)
    refine this.congr_deriv ?_
    rw [hl.toFlat]
    simp only [hself]
    simp
  · have hlt : k < comp.length := by omega
    have hk' : comp[k]? = some comp[k] := List.getElem?_eq_getElem hlt
    have hfree := (hl.free comp[k]).1 (List.getElem_mem hlt)
    have hin : comp[k].1.1 < L.rank ∧ comp[k].1.2.1 < 2 ∧ comp[k].1.2.2 < L.nW comp[k].1.2.1 := ⟨hfree.1, hfree.2.1, hfree.2.2.1⟩
    have := eval_deriv L hI (curve_of_par L hl par hk') (flat_of_par L hl par hk') (by simp only [hself]; exact hdef.intensity) (by
      intro hp
      refine ⟨hdef.width hp, ?_⟩
      intro r hr e he w hw hE
      simp only [hself]
      have hs : comp[k] = ((r, e, w), true) ∨ comp[k] = ((r, e, w), false) := by
        by_contra hcon
        push Not at hcon
        exact hE (by apply Complex.ext <;> simp [dir, hcon.1, hcon.2])
      refine hprior hp (r, e, w) hr he hw ?_
      have hmap := hl.map (r, e, w) hr he hw
      rcases hs with hs | hs
      · left; exact (hmap.1 k).2 (by rw [hk', hs])
      · right; exact (hmap.2 k).2 (by rw [hk', hs]))
    refine this.congr_deriv ?_
    rw [hl.toPar _ _ _ k _ hk']
    simp only [hself]
    rw [sum_dir L comp[k] hin (L.derivatives (copyFromParArray L.rank L.nW par).1 (copyFromParArray L.rank L.nW par).2)]
    simp

/-- **C24, FdF.** The single pass of `FdF` returns the value of `DoEval` and the gradient of `Gradient`. -/
theorem fdf_eq (L : LikData) (d : ParData) (par out : ℕ → ℝ) : L.fdf d par out = (L.doEval par, L.gradient d par out) := by
  unfold LikData.fdf LikData.doEval LikData.gradient
  generalize copyFromParArray L.rank L.nW par = p
  obtain ⟨V, flat⟩ := p
  simp only [fdf_events]
  rw [fdf_norm]
  simp only
  unfold LikData.eval
  cases hp : L.prior with
  | flat =>
    simp only
    refine Prod.ext ?_ (copyTo_congr _ _ _ _ _ _ _ _ ?_ ?_)
    · simp [LikData.normFactor, LikData.priorValue, hp, sum_slots]
    · intro s hs
      simp [LikData.derivatives, LikData.priorDeriv, hp, hs]
    · simp [LikData.derivativeFlat]
  | halfCauchy =>
    simp only
    rw [fdf_prior]
    refine Prod.ext ?_ (copyTo_congr _ _ _ _ _ _ _ _ ?_ ?_)
    · simp [LikData.normFactor, LikData.priorValue, hp, sum_slots]
    · intro s hs
      simp [LikData.derivatives, LikData.priorDeriv, hp, hs]
      ring
    · simp [LikData.derivativeFlat]

/-- **C24, FdF.** value and derivative returned together belong together. -/
theorem fdf_is_derivative (L : LikData) (wl : WaveList) (d : ParData) (m : ℝ) (hm : L.Matches wl d m) (hI : L.AccHermitian)
    (par out : ℕ → ℝ) (hdef : L.DefinedAt par) (k : ℕ) (hk : k < d.nmbPars) (hprior : L.PriorDefinedAt d par k) :
    HasDerivAt (fun x => (L.fdf d (Function.update par k x) out).1) ((L.fdf d par out).2 k) (par k) := by
  simp only [fdf_eq]
  exact gradient_is_derivative L wl d m hm hI par out hdef k hk hprior

/-- Finding: with the half-Cauchy prior the factor of the gradient of a vanishing amplitude (the start value of a wave that is switched
off, e.g. below threshold) is `(1/0) * 0`, although the likelihood is differentiable there: the divisor is zero. -/
theorem cauchy_gradient_divides_by_zero (L : LikData) (V : Amps) (s : Slot) (h : V s = 0) :
    ‖V s‖ * cauchyFunction ‖V s‖ L.cauchyWidth = 0 := by
  simp [h]

/-- Non-vacuity: one wave, one event; both parameters are free. -/
theorem lik_example : ∃ (L : LikData) (wl : WaveList) (d : ParData) (par : ℕ → ℝ), L.Matches wl d 1 ∧ L.AccHermitian ∧ L.DefinedAt par ∧
    (L.nmbEvents = 1 ∧ L.rank ≤ max (L.nW 0) (L.nW 1)) ∧ d.nmbPars = 2 ∧ L.prior = .halfCauchy ∧ (∀ k < 2, L.PriorDefinedAt d par k ∧ LikData.fixedAt d k = false) := by
  let wl : WaveList := ⟨fun e => if e = 1 then 1 else 0, fun _ _ => "w", fun _ _ => 0⟩
  let L : LikData := ⟨1, wl.nW, 1, fun _ _ _ => 1, fun _ _ _ => 1, 1, false, .halfCauchy, 1⟩
  obtain ⟨comp, c1, c2, d, hd, c3, _, cp, cf, _, _, c9, c10, c11, _⟩ := parameters_enumerate_components wl 1 1 (by simp [wl])
  have hm : L.Matches wl d 1 := ⟨⟨d, [], hd, by simp, rfl⟩, rfl⟩
  have hc : comp = [(((0, 1, 0) : Slot), true)] := by
    have hmem : ∀ c, c ∈ comp ↔ c = (((0, 1, 0) : Slot), true) := by
      rintro ⟨⟨r, e, w⟩, b⟩
      rw [c2]
      unfold Free
      simp only [wl]
      constructor
      · rintro ⟨h1, h2, h3, h4, h5⟩
        have hr : r = 0 := by omega
        split at h3
        · cases b
          · have := h5 rfl; omega
          · have hw : w = 0 := by omega
            subst hr hw; rename_i he; subst he; rfl
        · omega
      · intro h
        cases h
        simp
    cases comp with
    | nil => have := (hmem (((0, 1, 0) : Slot), true)).2 rfl; simp at this
    | cons a l =>
      have ha := (hmem a).1 (by simp)
      subst ha
      cases l with
      | nil => rfl
      | cons b l =>
        have hb := (hmem b).1 (by simp)
        subst hb
        simp at c1
  have hone : ∀ s, s.1 < 1 → s.2.1 < 2 → s.2.2 < wl.nW s.2.1 → L.amps (fun _ => 1) s ≠ 0 := by
    rintro ⟨r, e, w⟩ h1 h2 h3
    simp only [wl] at h1 h2 h3
    split at h3
    · have hs : ((r, e, w) : Slot) = (0, 1, 0) := by
        rename_i he; subst he
        have : r = 0 := by omega
        have : w = 0 := by omega
        simp [*]
      rw [hs]
      have := c10 (fun _ => 1) 0 (((0, 1, 0) : Slot), true) (by rw [hc]; rfl)
      intro h0
      have h0' : (copyFromParArray 1 wl.nW fun _ => 1).1 (0, 1, 0) = 0 := h0
      rw [h0'] at this
      simp [part] at this
    · omega
  refine ⟨L, wl, d, fun _ => 1, hm, fun _ _ _ => by simp [L], ⟨?_, fun _ => by simp [L]⟩, ⟨rfl, by simp [L, wl]⟩, by rw [c3, hc]; rfl, rfl, ?_⟩
  · intro ev _
    have hf : L.flat (fun _ => 1) = 1 := c11 (fun _ => 1)
    unfold LikData.sigma
    rw [hf]
    have : 0 ≤ ∑ r ∈ range L.rank, ∑ e ∈ range 2, normSq (L.ampSum (L.amps fun _ => 1) ev r e) :=
      sum_nonneg fun r _ => sum_nonneg fun e _ => normSq_nonneg _
    linarith
  · intro k hk
    refine ⟨fun _ s h1 h2 h3 _ => hone s h1 h2 h3, ?_⟩
    unfold LikData.fixedAt
    have : k = 0 ∨ k = 1 := by omega
    rcases this with rfl | rfl
    · obtain ⟨p, hp, _, _, _, _, hpf⟩ := cp 0 (((0, 1, 0) : Slot), true) (by rw [hc]; rfl)
      rw [hp]
      cases hx : p.fixed
      · simp [hx]
      · exact absurd rfl (hpf.1 hx).1
    · obtain ⟨p, hp, _, hpf, _⟩ := cf
      rw [hc] at hp
      have hp' : d.params[1]? = some p := hp
      rw [hp']
      simp [hpf]

end Rpwa.Lik

import Verif.Props.PwaFitEx
/-! # C60: the number of events at a stationary point -/
namespace Rpwa.PwaFit

open Rpwa.Lik Rpwa.Fit Finset Complex

/-- the sum over all amplitudes of amplitude times derivative. -/
theorem euler_identity (L : LikData) (hp : L.prior = .flat) (V : Amps) (f : ℝ) (hs : ∀ ev < L.nmbEvents, L.sigma V f ev ≠ 0) :
    (∑ r ∈ range L.rank, ∑ e ∈ range 2, ∑ w ∈ range (L.nW e), ((starRingEnd ℂ) (V (r, e, w)) * L.derivatives V f (r, e, w)).re)
      + f * L.derivativeFlat V f = -2 * L.nmbEvents + 2 * L.nmbEvt * L.normFactor V f := by
  have hterm : ∀ r e w, ((starRingEnd ℂ) (V (r, e, w)) * L.derivatives V f (r, e, w)).re =
      (∑ ev ∈ range L.nmbEvents, -(2 / L.sigma V f ev) * ((starRingEnd ℂ) (V (r, e, w) * L.decayAmps e ev w) * L.ampSum V ev r e).re)
      + 2 * L.nmbEvt * ∑ j ∈ range (L.nW e), ((V (r, e, w) * (starRingEnd ℂ) (V (r, e, j))) * L.accMatrix e w j).re := by
    intro r e w
    have hpr : L.priorDeriv V (r, e, w) = 0 := by unfold LikData.priorDeriv; rw [hp]
    unfold LikData.derivatives LikData.evtDeriv
    rw [hpr, sub_zero, mul_add, add_re, mul_sum, re_sum]
    congr 1
    · refine sum_congr rfl fun ev _ => ?_
      rw [map_mul]
      have : (starRingEnd ℂ) (V (r, e, w)) * (-((2 / L.sigma V f ev : ℝ) : ℂ) * (L.ampSum V ev r e * (starRingEnd ℂ) (L.decayAmps e ev w))) =
          ((-(2 / L.sigma V f ev) : ℝ) : ℂ) * ((starRingEnd ℂ) (V (r, e, w)) * (starRingEnd ℂ) (L.decayAmps e ev w) * L.ampSum V ev r e) := by
        push_cast; ring
      simp only
      rw [this, re_ofReal_mul]
    · simp only
      rw [← mul_assoc, mul_sum, sum_mul, re_sum, mul_sum]
      refine sum_congr rfl fun j _ => ?_
      have h1 : ((starRingEnd ℂ) (V (r, e, w)) * (V (r, e, j) * (starRingEnd ℂ) (L.accMatrix e w j)) * ((2 * L.nmbEvt : ℝ) : ℂ)) =
          ((2 * L.nmbEvt : ℝ) : ℂ) * (starRingEnd ℂ) ((V (r, e, w) * (starRingEnd ℂ) (V (r, e, j))) * L.accMatrix e w j) := by
        simp only [map_mul, conj_conj]; ring
      rw [h1, re_ofReal_mul, conj_re]
  simp only [hterm, sum_add_distrib, ← mul_sum]
  have hev : ∑ r ∈ range L.rank, ∑ e ∈ range 2, ∑ w ∈ range (L.nW e), ∑ ev ∈ range L.nmbEvents,
      -(2 / L.sigma V f ev) * ((starRingEnd ℂ) (V (r, e, w) * L.decayAmps e ev w) * L.ampSum V ev r e).re =
      ∑ ev ∈ range L.nmbEvents, -(2 / L.sigma V f ev) * ∑ r ∈ range L.rank, ∑ e ∈ range 2, normSq (L.ampSum V ev r e) := by
    have h1 : ∀ r e, ∑ w ∈ range (L.nW e), ∑ ev ∈ range L.nmbEvents,
        -(2 / L.sigma V f ev) * ((starRingEnd ℂ) (V (r, e, w) * L.decayAmps e ev w) * L.ampSum V ev r e).re =
        ∑ ev ∈ range L.nmbEvents, -(2 / L.sigma V f ev) * normSq (L.ampSum V ev r e) := by
      intro r e
      rw [sum_comm]
      refine sum_congr rfl fun ev _ => ?_
      rw [← mul_sum, ← re_sum, ← sum_mul, ← map_sum]
      congr 1
      show ((starRingEnd ℂ) (L.ampSum V ev r e) * L.ampSum V ev r e).re = _
      rw [mul_comm, mul_conj, ofReal_re]
    simp only [h1]
    rw [sum_congr rfl fun r _ => sum_comm, sum_comm]
    refine sum_congr rfl fun ev _ => ?_
    rw [mul_sum]
    refine sum_congr rfl fun r _ => ?_
    rw [mul_sum]
  rw [hev]
  have hsum : ∑ ev ∈ range L.nmbEvents, -(2 / L.sigma V f ev) * ∑ r ∈ range L.rank, ∑ e ∈ range 2, normSq (L.ampSum V ev r e) =
      -2 * L.nmbEvents + ∑ ev ∈ range L.nmbEvents, 2 / L.sigma V f ev * (f * f) := by
    have h2 : ∀ ev ∈ range L.nmbEvents, -(2 / L.sigma V f ev) * ∑ r ∈ range L.rank, ∑ e ∈ range 2, normSq (L.ampSum V ev r e) =
        -2 + 2 / L.sigma V f ev * (f * f) := by
      intro ev hev
      have hne := hs ev (mem_range.1 hev)
      have h3 : ∑ r ∈ range L.rank, ∑ e ∈ range 2, normSq (L.ampSum V ev r e) = L.sigma V f ev - f * f := by unfold LikData.sigma; ring
      rw [h3]
      field_simp
      ring
    rw [sum_congr rfl h2, sum_add_distrib, sum_const, card_range]
    simp
    ring
  rw [hsum]
  unfold LikData.derivativeFlat LikData.normFactor
  have h4 : f * ((∑ ev ∈ range L.nmbEvents, -(2 / L.sigma V f ev) * f) + f * (2 * L.nmbEvt) * L.totAcc) =
      -(∑ ev ∈ range L.nmbEvents, 2 / L.sigma V f ev * (f * f)) + 2 * L.nmbEvt * (f * f * L.totAcc) := by
    rw [mul_add, mul_sum, ← sum_neg_distrib]
    refine congrArg₂ (· + ·) (sum_congr rfl fun ev _ => ?_) ?_ <;> ring
  rw [h4]
  ring

/-- **C60, event yield.** With the flat prior, the amplitudes at a stationary point of the likelihood predict exactly the number of events
that have been observed: the intensity integrated with acceptance is `nmbEvents` (for amplitudes that are not normalised to it: 1). -/
theorem stationary_events (L : LikData) (wl : WaveList) (d : ParData) (m : ℝ) (hm : L.Matches wl d m) (hp : L.prior = .flat)
    (par out : ℕ → ℝ) (hdef : L.DefinedAt par)
    (hstat : ∀ k < d.nmbPars, LikData.fixedAt d k = false → L.gradient d par out k = 0)
    (hfix : ∀ k < d.nmbPars, LikData.fixedAt d k = true → par k = 0) :
    L.nmbEvt * L.normFactor (L.amps par) (L.flat par) = L.nmbEvents := by
  obtain ⟨comp, hl⟩ := layout_of_matches L hm
  have hid := euler_identity L hp (L.amps par) (L.flat par) hdef.intensity
  have hzero : ∀ (s : Slot) (b : Bool), part (L.amps par s) b * part (L.derivatives (L.amps par) (L.flat par) s) b = 0 := by
    intro s b
    by_cases hf : Free L.rank L.nW (s, b)
    · obtain ⟨k, hk⟩ := List.getElem?_of_mem ((hl.free _).2 hf)
      have hlt : k < d.nmbPars := by
        have := (List.getElem?_eq_some_iff.1 hk).1
        have := hl.nmb
        omega
      have h1 := hl.fromPar par k _ hk
      have h2 := hl.toPar (L.derivatives (L.amps par) (L.flat par)) (L.derivativeFlat (L.amps par) (L.flat par)) out k _ hk
      cases hfx : LikData.fixedAt d k
      · have h3 := hstat k hlt hfx
        have h4 : part (L.derivatives (L.amps par) (L.flat par) s) b = 0 := h2.symm.trans h3
        rw [h4, mul_zero]
      · have h4 : part (L.amps par s) b = 0 := h1.trans (hfix k hlt hfx)
        rw [h4, zero_mul]
    · have h4 : part (L.amps par s) b = 0 := hl.fromZero par s b hf
      rw [h4, zero_mul]
  have hs0 : ∀ s : Slot, ((starRingEnd ℂ) (L.amps par s) * L.derivatives (L.amps par) (L.flat par) s).re = 0 := by
    intro s
    have h1 := hzero s true
    have h2 := hzero s false
    simp only [part, if_true, Bool.false_eq_true, if_false] at h1 h2
    simp only [mul_re, conj_re, conj_im]
    linarith only [h1, h2]
  have hf0 : L.derivativeFlat (L.amps par) (L.flat par) = 0 := by
    have h2 := hl.toFlat (L.derivatives (L.amps par) (L.flat par)) (L.derivativeFlat (L.amps par) (L.flat par)) out
    exact h2.symm.trans (hstat comp.length (by have := hl.nmb; omega) hl.flatFree)
  rw [hf0, mul_zero, add_zero, sum_eq_zero fun r _ => sum_eq_zero fun e _ => sum_eq_zero fun w _ => hs0 (r, e, w)] at hid
  linarith only [hid]

/-- Non-vacuity: the fit with two events of `PwaFitEx`. -/
theorem stationary_events_example : ∃ (L : LikData) (wl : WaveList) (d : ParData) (par : ℕ → ℝ), L.Matches wl d 1 ∧ L.prior = .flat ∧
    L.DefinedAt par ∧ (∀ k < d.nmbPars, LikData.fixedAt d k = false → L.gradient d par (fun _ => 0) k = 0) ∧
    (∀ k < d.nmbPars, LikData.fixedAt d k = true → par k = 0) ∧ L.nmbEvents = 2 ∧ L.nmbEvt * L.normFactor (L.amps par) (L.flat par) = 2 := by
  obtain ⟨d, hm, hl, hn, f0, f1, hfix⟩ := exLayout
  let par : ℕ → ℝ := fun k => if k = 0 then 1 / 2 else 1
  have hst := exStationary hl par (by simp [par]) (by simp [par])
  have hdef : exFn.DefinedAt par := by
    obtain ⟨a1, a2⟩ := exAmp hl par
    obtain ⟨s0, s1⟩ := exSigma (exFn.amps par) (par 0) (exFn.flat par) a1
    refine ⟨?_, fun h => by cases h⟩
    intro ev hev
    have : ev = 0 ∨ ev = 1 := by
      have : ev < 2 := hev
      omega
    rw [a2] at *
    rcases this with rfl | rfl
    · rw [s0]; simp [par]
    · rw [s1]; simp [par]; norm_num
  have hfx : ∀ k < d.nmbPars, LikData.fixedAt d k = true → par k = 0 := by
    intro k hk h
    have : k = 0 ∨ k = 1 := by omega
    rcases this with rfl | rfl
    · rw [f0] at h; cases h
    · rw [f1] at h; cases h
  have hst' : ∀ k < d.nmbPars, LikData.fixedAt d k = false → exFn.gradient d par (fun _ => 0) k = 0 := fun k hk _ => hst k (by omega)
  refine ⟨exFn, exWaves, d, par, hm, rfl, hdef, hst', hfx, rfl, ?_⟩
  rw [stationary_events exFn exWaves d 1 hm rfl par _ hdef hst' hfx]
  rfl

end Rpwa.PwaFit

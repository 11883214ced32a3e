import Verif.Spec.Likelihood
import Verif.Props.FitParameters
import Mathlib.Analysis.SpecialFunctions.Log.Deriv
import Mathlib.Analysis.Calculus.Deriv.Mul
import Mathlib.Analysis.Calculus.Deriv.Inv
import Mathlib.Analysis.Complex.RealDeriv
import Mathlib.Tactic.FieldSimp
import Mathlib.Algebra.BigOperators.Field
import Mathlib.Tactic.Ring
/-! Lemmas for C24 and C25: derivatives along a curve of production amplitudes. -/
namespace Rpwa.Lik

open Finset Complex

theorem hasDerivAt_re {u : ℝ → ℂ} {u' : ℂ} {t : ℝ} (h : HasDerivAt u u' t) : HasDerivAt (fun t => (u t).re) u'.re t :=
  (Complex.reCLM.hasFDerivAt (x := u t)).comp_hasDerivAt t h

theorem hasDerivAt_im {u : ℝ → ℂ} {u' : ℂ} {t : ℝ} (h : HasDerivAt u u' t) : HasDerivAt (fun t => (u t).im) u'.im t :=
  (Complex.imCLM.hasFDerivAt (x := u t)).comp_hasDerivAt t h

theorem hasDerivAt_conj {u : ℝ → ℂ} {u' : ℂ} {t : ℝ} (h : HasDerivAt u u' t) :
    HasDerivAt (fun t => (starRingEnd ℂ) (u t)) ((starRingEnd ℂ) u') t :=
  (Complex.conjCLE.toContinuousLinearMap.hasFDerivAt (x := u t)).comp_hasDerivAt t h

theorem hasDerivAt_ofReal {u : ℝ → ℝ} {u' : ℝ} {t : ℝ} (h : HasDerivAt u u' t) :
    HasDerivAt (fun t => ((u t : ℝ) : ℂ)) ((u' : ℝ) : ℂ) t :=
  (Complex.ofRealCLM.hasFDerivAt (x := u t)).comp_hasDerivAt t h

theorem hasDerivAt_normSq {u : ℝ → ℂ} {u' : ℂ} {t : ℝ} (h : HasDerivAt u u' t) :
    HasDerivAt (fun t => normSq (u t)) (2 * ((u t) * (starRingEnd ℂ) u').re) t := by
  have hr := hasDerivAt_re h
  have hi := hasDerivAt_im h
  have := (hr.mul hr).add (hi.mul hi)
  have e : (fun t => normSq (u t)) = (fun t => (u t).re * (u t).re + (u t).im * (u t).im) := by
    funext t; rw [normSq_apply]
  rw [e]
  refine this.congr_deriv ?_
  simp [mul_re, conj_re, conj_im]; ring

variable (L : LikData)

/-- a curve of production amplitudes with derivative `E` at `t`. -/
def Curve (V : ℝ → Amps) (E : Amps) (t : ℝ) : Prop := ∀ s, HasDerivAt (fun x => V x s) (E s) t

theorem ampSum_deriv {V : ℝ → Amps} {E : Amps} {t : ℝ} (h : Curve V E t) (ev r e : ℕ) :
    HasDerivAt (fun x => L.ampSum (V x) ev r e) (L.ampSum E ev r e) t := by
  unfold LikData.ampSum
  exact HasDerivAt.fun_sum fun w _ => (h (r, e, w)).mul_const _

/-- derivative of the sum of squares of one event. -/
noncomputable def sigma' (V E : Amps) (f f' : ℝ) (ev : ℕ) : ℝ :=
  (∑ r ∈ range L.rank, ∑ e ∈ range 2, 2 * (L.ampSum V ev r e * (starRingEnd ℂ) (L.ampSum E ev r e)).re) + 2 * f * f'

theorem sigma_deriv {V : ℝ → Amps} {E : Amps} {t : ℝ} (h : Curve V E t) {f : ℝ → ℝ} {f' : ℝ} (hf : HasDerivAt f f' t) (ev : ℕ) :
    HasDerivAt (fun x => L.sigma (V x) (f x) ev) (sigma' L (V t) E (f t) f' ev) t := by
  unfold LikData.sigma sigma'
  refine HasDerivAt.add ?_ ?_
  · exact HasDerivAt.fun_sum fun r _ => HasDerivAt.fun_sum fun e _ => hasDerivAt_normSq (ampSum_deriv L h ev r e)
  · exact (hf.mul hf).congr_deriv (by ring)

/-- the sum of squares in terms of `evtDeriv`. -/
theorem sigma'_eq (V E : Amps) (f f' : ℝ) (ev : ℕ) :
    sigma' L V E f f' ev =
      (∑ r ∈ range L.rank, ∑ e ∈ range 2, ∑ w ∈ range (L.nW e), 2 * ((starRingEnd ℂ) (E (r, e, w)) * L.evtDeriv V ev (r, e, w)).re)
        + 2 * f * f' := by
  unfold sigma'
  congr 1
  refine sum_congr rfl fun r _ => sum_congr rfl fun e _ => ?_
  unfold LikData.evtDeriv
  rw [← mul_sum, ← re_sum]
  congr 2
  conv_lhs => rw [show L.ampSum E ev r e = ∑ w ∈ range (L.nW e), E (r, e, w) * L.decayAmps e ev w from rfl, map_sum, mul_sum]
  refine sum_congr rfl fun w _ => ?_
  simp only [map_mul]
  ring

theorem normFactor_deriv (hI : L.AccHermitian) {V : ℝ → Amps} {E : Amps} {t : ℝ} (h : Curve V E t) {f : ℝ → ℝ} {f' : ℝ} (hf : HasDerivAt f f' t) :
    HasDerivAt (fun x => L.normFactor (V x) (f x))
      ((∑ r ∈ range L.rank, ∑ e ∈ range 2, ∑ w ∈ range (L.nW e), 2 * ((starRingEnd ℂ) (E (r, e, w)) *
        (∑ j ∈ range (L.nW e), V t (r, e, j) * (starRingEnd ℂ) (L.accMatrix e w j))).re) + 2 * f t * f' * L.totAcc) t := by
  unfold LikData.normFactor
  refine HasDerivAt.add ?_ ?_
  · refine HasDerivAt.fun_sum fun r _ => HasDerivAt.fun_sum fun e _ => ?_
    have h1 : HasDerivAt (fun x => ∑ i ∈ range (L.nW e), ∑ j ∈ range (L.nW e),
        ((V x (r, e, i) * (starRingEnd ℂ) (V x (r, e, j))) * L.accMatrix e i j).re)
        (∑ i ∈ range (L.nW e), ∑ j ∈ range (L.nW e),
          ((E (r, e, i) * (starRingEnd ℂ) (V t (r, e, j)) + V t (r, e, i) * (starRingEnd ℂ) (E (r, e, j))) * L.accMatrix e i j).re) t :=
      HasDerivAt.fun_sum fun i _ => HasDerivAt.fun_sum fun j _ => hasDerivAt_re (((h _).mul (hasDerivAt_conj (h _))).mul_const _)
    refine h1.congr_deriv ?_
    simp only [add_mul, add_re, sum_add_distrib]
    have a1 : ∑ i ∈ range (L.nW e), ∑ j ∈ range (L.nW e), (E (r, e, i) * (starRingEnd ℂ) (V t (r, e, j)) * L.accMatrix e i j).re =
        ∑ w ∈ range (L.nW e), ((starRingEnd ℂ) (E (r, e, w)) * (∑ j ∈ range (L.nW e), V t (r, e, j) * (starRingEnd ℂ) (L.accMatrix e w j))).re := by
      refine sum_congr rfl fun i _ => ?_
      rw [mul_sum, re_sum]
      refine sum_congr rfl fun j _ => ?_
      rw [← conj_re]
      simp only [map_mul, conj_conj, mul_assoc]
    have a2 : ∑ i ∈ range (L.nW e), ∑ j ∈ range (L.nW e), (V t (r, e, i) * (starRingEnd ℂ) (E (r, e, j)) * L.accMatrix e i j).re =
        ∑ w ∈ range (L.nW e), ((starRingEnd ℂ) (E (r, e, w)) * (∑ j ∈ range (L.nW e), V t (r, e, j) * (starRingEnd ℂ) (L.accMatrix e w j))).re := by
      rw [sum_comm]
      refine sum_congr rfl fun i _ => ?_
      rw [mul_sum, re_sum]
      refine sum_congr rfl fun j _ => ?_
      rw [hI e i j]
      congr 1; ring
    rw [a1, a2, ← mul_sum]
    ring
  · exact ((hf.mul hf).mul_const _).congr_deriv (by ring)

theorem cauchy_log {x g : ℝ} (hg : g ≠ 0) : -Real.log (cauchyFunction x g) = Real.log (1 + x * x / (g * g)) := by
  unfold cauchyFunction
  rw [one_div, Real.log_inv, neg_neg]

theorem cauchy_factor {x g : ℝ} (hg : g ≠ 0) (hx : x ≠ 0) :
    (1 / (x * cauchyFunction x g)) * cauchyFunctionDerivative x g = -2 / (g * g + x * x) := by
  unfold cauchyFunction cauchyFunctionDerivative
  have hgg : 0 < g * g := mul_self_pos.2 hg
  have hxx : 0 ≤ x * x := mul_self_nonneg x
  have h1 : g * g + x * x ≠ 0 := by positivity
  have h2 : 1 + x * x / (g * g) ≠ 0 := by positivity
  field_simp

theorem priorDeriv_eq (V : Amps) (s : Slot) (hp : L.prior = .halfCauchy) (hg : L.cauchyWidth ≠ 0) (hV : V s ≠ 0) :
    L.priorDeriv V s = ((-2 / (L.cauchyWidth * L.cauchyWidth + normSq (V s)) : ℝ) : ℂ) * V s := by
  unfold LikData.priorDeriv
  rw [hp]
  simp only
  rw [cauchy_factor hg (norm_ne_zero_iff.2 hV), Complex.norm_mul_self_eq_normSq]
  apply Complex.ext
  · rw [re_ofReal_mul]
  · rw [im_ofReal_mul]

theorem log_cauchy_deriv {u : ℝ → ℂ} {u' : ℂ} {t g : ℝ} (hg : g ≠ 0) (h : HasDerivAt u u' t) :
    HasDerivAt (fun x => -Real.log (cauchyFunction ‖u x‖ g)) (2 * ((starRingEnd ℂ) u' * u t).re / (g * g + normSq (u t))) t := by
  have e : (fun x => -Real.log (cauchyFunction ‖u x‖ g)) = fun x => Real.log (1 + normSq (u x) / (g * g)) := by
    funext x; rw [cauchy_log hg, Complex.norm_mul_self_eq_normSq]
  rw [e]
  have hn : 0 ≤ normSq (u t) := normSq_nonneg _
  have hgg : 0 < g * g := mul_self_pos.2 hg
  have h1 : 1 + normSq (u t) / (g * g) ≠ 0 := by positivity
  have h2 : g * g + normSq (u t) ≠ 0 := by positivity
  refine ((((hasDerivAt_normSq h).div_const (g * g)).const_add 1).log h1).congr_deriv ?_
  rw [mul_comm (u t)]
  field_simp

/-- **derivative of the likelihood along a curve of amplitudes**. -/
theorem eval_deriv (hI : L.AccHermitian) {V : ℝ → Amps} {E : Amps} {t : ℝ} (h : Curve V E t) {f : ℝ → ℝ} {f' : ℝ} (hf : HasDerivAt f f' t)
    (hs : ∀ ev < L.nmbEvents, L.sigma (V t) (f t) ev ≠ 0)
    (hp : L.prior = .halfCauchy → L.cauchyWidth ≠ 0 ∧ ∀ r < L.rank, ∀ e < 2, ∀ w < L.nW e, E (r, e, w) ≠ 0 → V t (r, e, w) ≠ 0) :
    HasDerivAt (fun x => L.eval (V x) (f x))
      ((∑ r ∈ range L.rank, ∑ e ∈ range 2, ∑ w ∈ range (L.nW e),
        ((starRingEnd ℂ) (E (r, e, w)) * L.derivatives (V t) (f t) (r, e, w)).re) + f' * L.derivativeFlat (V t) (f t)) t := by
  unfold LikData.eval
  have h1 : HasDerivAt (fun x => ∑ ev ∈ range L.nmbEvents, -Real.log (L.sigma (V x) (f x) ev))
      (∑ ev ∈ range L.nmbEvents, -(sigma' L (V t) E (f t) f' ev / L.sigma (V t) (f t) ev)) t :=
    HasDerivAt.fun_sum fun ev hev => ((sigma_deriv L h hf ev).log (hs ev (mem_range.1 hev))).neg
  have h2 := (normFactor_deriv L hI h hf).const_mul L.nmbEvt
  have h3 : HasDerivAt (fun x => L.priorValue (V x))
      (∑ r ∈ range L.rank, ∑ e ∈ range 2, ∑ w ∈ range (L.nW e), -((starRingEnd ℂ) (E (r, e, w)) * L.priorDeriv (V t) (r, e, w)).re) t := by
    cases hprior : L.prior with
    | flat =>
      have : (fun x => L.priorValue (V x)) = fun _ => 0 := by funext x; simp [LikData.priorValue, hprior]
      rw [this]
      refine (hasDerivAt_const t (0 : ℝ)).congr_deriv ?_
      simp [LikData.priorDeriv, hprior]
    | halfCauchy =>
      obtain ⟨hg, hne⟩ := hp hprior
      have : (fun x => L.priorValue (V x)) = fun x => ∑ r ∈ range L.rank, ∑ e ∈ range 2, ∑ w ∈ range (L.nW e),
          -Real.log (cauchyFunction ‖V x (r, e, w)‖ L.cauchyWidth) := by funext x; simp only [LikData.priorValue, hprior]
      rw [this]
      refine HasDerivAt.fun_sum fun r hr => HasDerivAt.fun_sum fun e he => HasDerivAt.fun_sum fun w hw => ?_
      refine (log_cauchy_deriv hg (h (r, e, w))).congr_deriv ?_
      by_cases hE : E (r, e, w) = 0
      · simp [hE]
      · rw [priorDeriv_eq L (V t) (r, e, w) hprior hg (hne r (mem_range.1 hr) e (mem_range.1 he) w (mem_range.1 hw) hE)]
        rw [mul_left_comm, re_ofReal_mul]
        ring
  refine ((h1.add h2).add h3).congr_deriv ?_
  unfold LikData.derivatives LikData.derivativeFlat
  simp only [sigma'_eq, mul_sub, mul_add, sub_re, add_re, sum_sub_distrib, sum_add_distrib]
  have b1 : ∀ ev, -(((∑ r ∈ range L.rank, ∑ e ∈ range 2, ∑ w ∈ range (L.nW e),
      2 * ((starRingEnd ℂ) (E (r, e, w)) * L.evtDeriv (V t) ev (r, e, w)).re) + 2 * f t * f') / L.sigma (V t) (f t) ev) =
      (∑ r ∈ range L.rank, ∑ e ∈ range 2, ∑ w ∈ range (L.nW e),
        ((starRingEnd ℂ) (E (r, e, w)) * (-((2 / L.sigma (V t) (f t) ev : ℝ) : ℂ) * L.evtDeriv (V t) ev (r, e, w))).re)
      + f' * (-(2 / L.sigma (V t) (f t) ev) * f t) := by
    intro ev
    rw [add_div, neg_add, sum_div, ← sum_neg_distrib]
    congr 1
    · refine sum_congr rfl fun r _ => ?_
      rw [sum_div, ← sum_neg_distrib]
      refine sum_congr rfl fun e _ => ?_
      rw [sum_div, ← sum_neg_distrib]
      refine sum_congr rfl fun w _ => ?_
      rw [mul_left_comm, ← ofReal_neg, re_ofReal_mul]
      ring
    · ring
  simp only [b1, sum_add_distrib]
  have b2 : ∑ ev ∈ range L.nmbEvents, ∑ r ∈ range L.rank, ∑ e ∈ range 2, ∑ w ∈ range (L.nW e),
        ((starRingEnd ℂ) (E (r, e, w)) * (-((2 / L.sigma (V t) (f t) ev : ℝ) : ℂ) * L.evtDeriv (V t) ev (r, e, w))).re =
      ∑ r ∈ range L.rank, ∑ e ∈ range 2, ∑ w ∈ range (L.nW e),
        ((starRingEnd ℂ) (E (r, e, w)) * ∑ ev ∈ range L.nmbEvents, -((2 / L.sigma (V t) (f t) ev : ℝ) : ℂ) * L.evtDeriv (V t) ev (r, e, w)).re := by
    rw [sum_comm]
    refine sum_congr rfl fun r _ => ?_
    rw [sum_comm]
    refine sum_congr rfl fun e _ => ?_
    rw [sum_comm]
    refine sum_congr rfl fun w _ => ?_
    rw [mul_sum, re_sum]
  have b3 : L.nmbEvt * (∑ r ∈ range L.rank, ∑ e ∈ range 2, ∑ w ∈ range (L.nW e), 2 * ((starRingEnd ℂ) (E (r, e, w)) *
        (∑ j ∈ range (L.nW e), V t (r, e, j) * (starRingEnd ℂ) (L.accMatrix e w j))).re) =
      ∑ r ∈ range L.rank, ∑ e ∈ range 2, ∑ w ∈ range (L.nW e), ((starRingEnd ℂ) (E (r, e, w)) *
        ((∑ j ∈ range (L.nW e), V t (r, e, j) * (starRingEnd ℂ) (L.accMatrix e w j)) * ((2 * L.nmbEvt : ℝ) : ℂ))).re := by
    rw [mul_sum]
    refine sum_congr rfl fun r _ => ?_
    rw [mul_sum]
    refine sum_congr rfl fun e _ => ?_
    rw [mul_sum]
    refine sum_congr rfl fun w _ => ?_
    rw [← mul_assoc ((starRingEnd ℂ) (E (r, e, w))), mul_comm _ ((2 * L.nmbEvt : ℝ) : ℂ), re_ofReal_mul]
    ring
  rw [b2]
  rw [show L.nmbEvt * (2 * f t * f' * L.totAcc) = f' * (f t * (2 * L.nmbEvt) * L.totAcc) by ring, b3]
  simp only [sum_neg_distrib, ← mul_sum]
  ring

/-- direction in which amplitude component `c` grows. -/
noncomputable def dir (c : Comp) : Amps := fun s => ⟨if c = (s, true) then 1 else 0, if c = (s, false) then 1 else 0⟩

/-- The facts about a parameter layout used below. -/
structure Layout (L : LikData) (d : ParData) (comp : List Comp) : Prop where
  nodup : comp.Nodup
  free : ∀ c, c ∈ comp ↔ Free L.rank L.nW c
  nmb : d.nmbPars = comp.length + 1
  len : d.params.length = d.nmbPars
  map : ∀ s : Slot, s.1 < L.rank → s.2.1 < 2 → s.2.2 < L.nW s.2.1 →
    (∀ k, (d.map s).1 = some k ↔ comp[k]? = some (s, true)) ∧ (∀ k, (d.map s).2 = some k ↔ comp[k]? = some (s, false))
  fromZero : ∀ par s b, ¬ Free L.rank L.nW (s, b) → part ((copyFromParArray L.rank L.nW par).1 s) b = 0
  fromPar : ∀ (par : ℕ → ℝ) (k : ℕ) (c : Comp), comp[k]? = some c → part ((copyFromParArray L.rank L.nW par).1 c.1) c.2 = par k
  fromFlat : ∀ par, (copyFromParArray L.rank L.nW par).2 = par comp.length
  toPar : ∀ (a : Amps) (f : ℝ) (out : ℕ → ℝ) (k : ℕ) (c : Comp), comp[k]? = some c → copyToParArray L.rank L.nW d a f out k = part (a c.1) c.2
  toFlat : ∀ a f out, copyToParArray L.rank L.nW d a f out comp.length = f
  fixed : ∃ F : Slot → Bool, ∀ (k : ℕ) (c : Comp), comp[k]? = some c → LikData.fixedAt d k = F c.1
  flatFree : LikData.fixedAt d comp.length = false

theorem layout_of_matches {wl : WaveList} {d : ParData} {m : ℝ} (h : L.Matches wl d m) : ∃ comp, Layout L d comp := by
  obtain ⟨d0, empty, hb, hflat, rfl⟩ := h.built
  have h0 : wl.nW 0 + wl.nW 1 ≠ 0 := by
    obtain ⟨r, h1, h2⟩ := buildParDataStruct_returns wl L.rank m
    rw [hb] at h1; cases h1
    intro h0; simpa using h2.2 h0
  obtain ⟨comp, c1, c2, d', hd', c3, c4, c5, c6, c7, c8, c9, c10, c11, c12, c13, c14⟩ := parameters_enumerate_components wl L.rank m h0
  rw [hb] at hd'; cases hd'
  rw [← h.waves] at c2 c8 c9 c10 c11 c12 c13 c14
  have key : ∀ (empty : List String), "flat" ∉ empty → (empty.foldl fixWave d0).nmbPars = d0.nmbPars ∧ (empty.foldl fixWave d0).map = d0.map ∧
      (empty.foldl fixWave d0).params.length = d0.params.length ∧
      (∃ F : Slot → Bool, ∀ (k : ℕ) (c : Comp), comp[k]? = some c → ∃ p : FitPar, (empty.foldl fixWave d0).params[k]? = some p ∧
        p.waveName = wl.name c.1.2.1 c.1.2.2 ∧ p.fixed = F c.1) ∧
      (∃ p : FitPar, (empty.foldl fixWave d0).params[comp.length]? = some p ∧ p.waveName = "flat" ∧ p.fixed = false) := by
    intro empty hfl
    induction empty using List.reverseRecOn with
    | nil =>
      refine ⟨rfl, rfl, rfl, ⟨fun s => belowThreshold (wl.threshold s.2.1 s.2.2) m, ?_⟩, ?_⟩
      · intro k c hk
        obtain ⟨p, p1, p2, _, _, _, p6⟩ := c5 k c hk
        refine ⟨p, p1, p2, ?_⟩
        rw [Bool.eq_iff_iff, p6]; simp [belowThreshold]
      · obtain ⟨p, p1, p2, p3, _⟩ := c6
        exact ⟨p, p1, p2, p3⟩
    | append_singleton l n ih =>
      have hl : "flat" ∉ l := fun hc => hfl (List.mem_append_left _ hc)
      have hn : n ≠ "flat" := fun hc => hfl (by simp [hc])
      obtain ⟨i1, i2, i3, ⟨F, i4⟩, ⟨p, i5, i6, i7⟩⟩ := ih hl
      rw [List.foldl_append]
      simp only [List.foldl_cons, List.foldl_nil]
      refine ⟨i1, i2, by simp [fixWave, i3], ⟨fun s => F s || decide (wl.name s.2.1 s.2.2 = n), ?_⟩, ⟨p, ?_, i6, i7⟩⟩
      · intro k c hk
        obtain ⟨p, p1, p2, p3⟩ := i4 k c hk
        by_cases hp : p.waveName ≠ n
        · refine ⟨p, by simp [fixWave, p1, hp], p2, ?_⟩
          show p.fixed = (F c.1 || decide (wl.name c.1.2.1 c.1.2.2 = n))
          rw [p3, ← p2]; simp [hp]
        · push Not at hp
          refine ⟨{ p with fixed := true }, by simp [fixWave, p1, hp], p2, ?_⟩
          show true = (F c.1 || decide (wl.name c.1.2.1 c.1.2.2 = n))
          rw [← p2]; simp [hp]
      · simp [fixWave, i5, i6, hn.symm]
  obtain ⟨k1, k2, k3, ⟨F, k4⟩, ⟨p, k5, _, k7⟩⟩ := key empty hflat
  refine ⟨comp, c1, c2, by rw [k1, c3], by rw [k3, k1, c4], ?_, c9, c10, c11, ?_, ?_, ⟨F, ?_⟩, ?_⟩
  · rw [k2]; exact c8
  · intro a f out k c hk
    rw [← c12 a f out k c hk]
    simp only [copyToParArray, k1, k2]
  · intro a f out
    refine Eq.trans ?_ (c13 a f out)
    simp only [copyToParArray, k1, k2]
  · intro k c hk
    obtain ⟨p, p1, _, p3⟩ := k4 k c hk
    simp [LikData.fixedAt, p1, p3]
  · simp [LikData.fixedAt, k5, k7]

/-- the amplitudes move along a straight line when one parameter is varied. -/
theorem curve_of_par {d : ParData} {comp : List Comp} (hl : Layout L d comp) (par : ℕ → ℝ) {k : ℕ} {c : Comp} (hk : comp[k]? = some c) :
    Curve (fun x => (copyFromParArray L.rank L.nW (Function.update par k x)).1) (dir c) (par k) := by
  intro s
  have heq : (fun x => (copyFromParArray L.rank L.nW (Function.update par k x)).1 s) =
      fun x => (copyFromParArray L.rank L.nW par).1 s + ((x - par k : ℝ) : ℂ) * dir c s := by
    funext x
    have hp : ∀ b, part ((copyFromParArray L.rank L.nW (Function.update par k x)).1 s) b =
        part ((copyFromParArray L.rank L.nW par).1 s) b + (x - par k) * (if c = (s, b) then 1 else 0) := by
      intro b
      by_cases hf : Free L.rank L.nW (s, b)
      · obtain ⟨i, hi⟩ := List.getElem?_of_mem ((hl.free _).2 hf)
        rw [hl.fromPar _ i _ hi, hl.fromPar _ i _ hi]
        by_cases hik : i = k
        · subst hik
          rw [hi] at hk; cases hk
          simp
        · have : c ≠ (s, b) := by
            intro hc
            rw [← hc] at hi
            obtain ⟨l1, e1⟩ := List.getElem?_eq_some_iff.1 hi
            obtain ⟨l2, e2⟩ := List.getElem?_eq_some_iff.1 hk
            exact hik ((hl.nodup.getElem_inj_iff).1 (e1.trans e2.symm))
          rw [Function.update_of_ne hik]
          simp [this]
      · rw [hl.fromZero _ _ _ hf, hl.fromZero _ _ _ hf]
        have : c ≠ (s, b) := by
          intro hc
          obtain ⟨l2, e2⟩ := List.getElem?_eq_some_iff.1 hk
          exact hf ((hl.free _).1 (hc ▸ e2 ▸ List.getElem_mem l2))
        simp [this]
    have h1 := hp true
    have h2 := hp false
    simp only [part] at h1 h2
    simp only [if_true, Bool.false_eq_true, if_false] at h1 h2
    apply Complex.ext
    · rw [h1, add_re, re_ofReal_mul]; simp [dir]
    · rw [h2, add_im, im_ofReal_mul]; simp [dir]
  rw [heq]
  have h1 : HasDerivAt (fun x : ℝ => x - par k) 1 (par k) := (hasDerivAt_id _).sub_const _
  refine (((hasDerivAt_ofReal h1).mul_const (dir c s)).const_add _).congr_deriv ?_
  simp

theorem flat_of_par {d : ParData} {comp : List Comp} (hl : Layout L d comp) (par : ℕ → ℝ) {k : ℕ} {c : Comp} (hk : comp[k]? = some c) :
    HasDerivAt (fun x => (copyFromParArray L.rank L.nW (Function.update par k x)).2) 0 (par k) := by
  have hlt : k < comp.length := (List.getElem?_eq_some_iff.1 hk).1
  have : (fun x => (copyFromParArray L.rank L.nW (Function.update par k x)).2) = fun _ => par comp.length := by
    funext x; rw [hl.fromFlat, Function.update_of_ne (by omega)]
  rw [this]; exact hasDerivAt_const _ _

theorem curve_of_flat {d : ParData} {comp : List Comp} (hl : Layout L d comp) (par : ℕ → ℝ) :
    (∀ x, (copyFromParArray L.rank L.nW (Function.update par comp.length x)).1 = (copyFromParArray L.rank L.nW par).1) ∧
    Curve (fun x => (copyFromParArray L.rank L.nW (Function.update par comp.length x)).1) (fun _ => 0) (par comp.length) ∧
    HasDerivAt (fun x => (copyFromParArray L.rank L.nW (Function.update par comp.length x)).2) 1 (par comp.length) := by
  have h1 : ∀ x, (copyFromParArray L.rank L.nW (Function.update par comp.length x)).1 = (copyFromParArray L.rank L.nW par).1 := by
    intro x
    have hp : ∀ s b, part ((copyFromParArray L.rank L.nW (Function.update par comp.length x)).1 s) b =
        part ((copyFromParArray L.rank L.nW par).1 s) b := by
      intro s b
      by_cases hf : Free L.rank L.nW (s, b)
      · obtain ⟨i, hi⟩ := List.getElem?_of_mem ((hl.free _).2 hf)
        have hlt : i < comp.length := (List.getElem?_eq_some_iff.1 hi).1
        rw [hl.fromPar _ i _ hi, hl.fromPar _ i _ hi, Function.update_of_ne (by omega)]
      · rw [hl.fromZero _ _ _ hf, hl.fromZero _ _ _ hf]
    funext s
    exact Complex.ext (hp s true) (hp s false)
  refine ⟨h1, ?_, ?_⟩
  · intro s
    simp only [h1]
    exact hasDerivAt_const _ _
  · have : (fun x => (copyFromParArray L.rank L.nW (Function.update par comp.length x)).2) = fun x => x := by
      funext x; rw [hl.fromFlat, Function.update_self]
    rw [this]; exact hasDerivAt_id _

/-- a sum over all slots against a direction picks one slot. -/
theorem sum_dir (c : Comp) (hc : c.1.1 < L.rank ∧ c.1.2.1 < 2 ∧ c.1.2.2 < L.nW c.1.2.1) (G : Amps) :
    ∑ r ∈ range L.rank, ∑ e ∈ range 2, ∑ w ∈ range (L.nW e), ((starRingEnd ℂ) (dir c (r, e, w)) * G (r, e, w)).re = part (G c.1) c.2 := by
  obtain ⟨⟨r0, e0, w0⟩, b⟩ := c
  obtain ⟨h1, h2, h3⟩ := hc
  simp only at h1 h2 h3
  have hz : ∀ r e w, (r, e, w) ≠ (r0, e0, w0) → dir ((r0, e0, w0), b) (r, e, w) = 0 := by
    intro r e w hne
    have : ∀ b', ((r0, e0, w0), b) ≠ (((r, e, w) : Slot), b') := by
      intro b' hh; exact hne (Prod.ext_iff.1 hh).1.symm
    apply Complex.ext <;> simp [dir, this]
  rw [sum_eq_single r0, sum_eq_single e0, sum_eq_single w0]
  · cases b <;> simp [dir, part, mul_re]
  · intro w _ hw
    rw [hz r0 e0 w (by simp [hw])]; simp
  · intro hh; simp at hh; omega
  · intro e _ he
    refine sum_eq_zero fun w _ => ?_
    rw [hz r0 e w (by simp [he])]; simp
  · intro hh; simp at hh; omega
  · intro r _ hr
    refine sum_eq_zero fun e _ => sum_eq_zero fun w _ => ?_
    rw [hz r e w (by simp [hr])]; simp
  · intro hh; simp at hh; omega

/-! ### the single pass of `FdF` -/

theorem sum_slots (rank : ℕ) (nW : ℕ → ℕ) (g : Slot → ℝ) :
    ((slots rank nW).map g).sum = ∑ r ∈ range rank, ∑ e ∈ range 2, ∑ w ∈ range (nW e), g (r, e, w) := by
  have hr : ∀ (n : ℕ) (h : ℕ → ℝ), ((List.range n).map h).sum = ∑ i ∈ range n, h i := by
    intro n h
    induction n with
    | zero => simp
    | succ n ih => rw [List.range_succ, sum_range_succ, List.map_append, List.sum_append, ih]; simp
  have hf : ∀ (n : ℕ) (h : ℕ → List ℝ), ((List.range n).flatMap h).sum = ∑ i ∈ range n, (h i).sum := by
    intro n h
    induction n with
    | zero => simp
    | succ n ih => rw [List.range_succ, sum_range_succ, List.flatMap_append, List.sum_append, ih]; simp
  unfold slots
  simp only [List.map_flatMap, List.map_map]
  rw [hf]
  refine sum_congr rfl fun r _ => ?_
  rw [hf]
  refine sum_congr rfl fun e _ => ?_
  rw [hr]; rfl

theorem fdf_events (V : Amps) (flat : ℝ) : (List.range L.nmbEvents).foldl (L.fdfEvent V flat) ⟨0, fun _ => 0, 0⟩ =
    ⟨∑ ev ∈ range L.nmbEvents, -Real.log (L.sigma V flat ev),
     fun s => ∑ ev ∈ range L.nmbEvents, -((2 / L.sigma V flat ev : ℝ) : ℂ) * L.evtDeriv V ev s,
     ∑ ev ∈ range L.nmbEvents, -(2 / L.sigma V flat ev) * flat⟩ := by
  generalize L.nmbEvents = n
  induction n with
  | zero => simp
  | succ n ih =>
    rw [List.range_succ, List.foldl_append, ih]
    simp only [List.foldl_cons, List.foldl_nil, sum_range_succ]
    rfl

theorem fdf_slots (step : LikData.FdfState → Slot → LikData.FdfState) (g : Slot → ℝ) (z : Slot → ℂ)
    (h : ∀ st s, step st s = ⟨st.value + g s, LikData.addAt st.derivatives s (z s), st.derivativeFlat⟩)
    (l : List Slot) (hl : l.Nodup) (st : LikData.FdfState) :
    l.foldl step st = ⟨st.value + (l.map g).sum, fun s => st.derivatives s + (if s ∈ l then z s else 0), st.derivativeFlat⟩ := by
  induction l generalizing st with
  | nil => simp
  | cons a l ih =>
    rw [List.foldl_cons, h, ih (List.nodup_cons.1 hl).2]
    have ha := (List.nodup_cons.1 hl).1
    congr 1
    · simp [add_assoc]
    · funext s
      unfold LikData.addAt
      by_cases hs : s = a
      · subst hs; simp [ha]
      · simp [hs]

theorem fdf_norm (V : Amps) (st : LikData.FdfState) : (slots L.rank L.nW).foldl (L.fdfNorm V) st =
    ⟨st.value + ((slots L.rank L.nW).map fun s =>
        ∑ j ∈ range (L.nW s.2.1), ((V s * (starRingEnd ℂ) (V (s.1, s.2.1, j))) * L.accMatrix s.2.1 s.2.2 j).re).sum,
      fun s => st.derivatives s + (if s ∈ slots L.rank L.nW then
        (∑ j ∈ range (L.nW s.2.1), V (s.1, s.2.1, j) * (starRingEnd ℂ) (L.accMatrix s.2.1 s.2.2 j)) * ((2 * L.nmbEvt : ℝ) : ℂ) else 0),
      st.derivativeFlat⟩ := by
  exact fdf_slots (L.fdfNorm V) (fun s =>
        ∑ j ∈ range (L.nW s.2.1), ((V s * (starRingEnd ℂ) (V (s.1, s.2.1, j))) * L.accMatrix s.2.1 s.2.2 j).re) (fun s =>
        (∑ j ∈ range (L.nW s.2.1), V (s.1, s.2.1, j) * (starRingEnd ℂ) (L.accMatrix s.2.1 s.2.2 j)) * ((2 * L.nmbEvt : ℝ) : ℂ))
    (fun st s => rfl) _ (nodup_slots _ _) st

theorem fdf_prior (V : Amps) (st : LikData.FdfState) : (slots L.rank L.nW).foldl (L.fdfPrior V) st =
    ⟨st.value + ((slots L.rank L.nW).map fun s => -Real.log (cauchyFunction ‖V s‖ L.cauchyWidth)).sum,
      fun s => st.derivatives s + (if s ∈ slots L.rank L.nW then
        -(⟨(1 / (‖V s‖ * cauchyFunction ‖V s‖ L.cauchyWidth)) * cauchyFunctionDerivative ‖V s‖ L.cauchyWidth * (V s).re,
          (1 / (‖V s‖ * cauchyFunction ‖V s‖ L.cauchyWidth)) * cauchyFunctionDerivative ‖V s‖ L.cauchyWidth * (V s).im⟩ : ℂ) else 0),
      st.derivativeFlat⟩ := by
  rw [fdf_slots _ (fun s => -Real.log (cauchyFunction ‖V s‖ L.cauchyWidth)) (fun s =>
        -(⟨(1 / (‖V s‖ * cauchyFunction ‖V s‖ L.cauchyWidth)) * cauchyFunctionDerivative ‖V s‖ L.cauchyWidth * (V s).re,
          (1 / (‖V s‖ * cauchyFunction ‖V s‖ L.cauchyWidth)) * cauchyFunctionDerivative ‖V s‖ L.cauchyWidth * (V s).im⟩ : ℂ)) ?_ _ (nodup_slots _ _)]
  intro st s
  simp only [LikData.fdfPrior, sub_eq_add_neg]

theorem copyTo_congr (rank : ℕ) (nW : ℕ → ℕ) (d : ParData) (a a' : Amps) (f f' : ℝ) (out : ℕ → ℝ)
    (h : ∀ s ∈ slots rank nW, a s = a' s) (hf : f = f') : copyToParArray rank nW d a f out = copyToParArray rank nW d a' f' out := by
  unfold copyToParArray
  subst hf
  have : (slots rank nW).foldl (copyToStep d.map a) out = (slots rank nW).foldl (copyToStep d.map a') out := by
    generalize slots rank nW = l at h
    induction l generalizing out with
    | nil => rfl
    | cons s l ih =>
      rw [List.foldl_cons, List.foldl_cons]
      have : copyToStep d.map a out s = copyToStep d.map a' out s := by
        unfold copyToStep; rw [h s (by simp)]
      rw [this]
      exact ih _ fun t ht => h t (by simp [ht])
  rw [this]

end Rpwa.Lik

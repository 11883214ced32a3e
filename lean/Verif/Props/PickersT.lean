import Verif.Props.PickersShape
import Mathlib.MeasureTheory.Measure.Lebesgue.Basic
/-! Inverse-transform sampling of t' -/
namespace Rpwa.Pick
open MeasureTheory Set

/-- a positive, non-increasing density `f` with primitive `F`. -/
structure Dens (F f : ℝ → ℝ) : Prop where
  hF : ∀ t, HasDerivAt F (f t) t
  hpos : ∀ t, 0 < f t
  hanti : Antitone f
  hcont : Continuous f

theorem dens_shape (p : List ℝ) (h : Falling p) : Dens (primSum (exponentials p)) (shape p) :=
  ⟨fun t => hasDerivAt_primSum _ (falling_ne h) t, shape_pos p h, expSum_antitone _ h.2, expSum_continuous _⟩

theorem Dens.strictMono {F f : ℝ → ℝ} (h : Dens F f) : StrictMono F := strictMono_of_deriv_pos fun x => by
  rw [(h.hF x).deriv]
  exact h.hpos x

theorem Dens.integral {F f : ℝ → ℝ} (h : Dens F f) (a b : ℝ) : ∫ s in a..b, f s = F b - F a :=
  intervalIntegral.integral_eq_sub_of_hasDerivAt (fun x _ => h.hF x) (h.hcont.intervalIntegrable _ _)

/-- the tangent lies above the primitive. -/
theorem Dens.tangent {F f : ℝ → ℝ} (h : Dens F f) {t q : ℝ} (htq : t ≤ q) : F q - F t ≤ f t * (q - t) := by
  rcases eq_or_lt_of_le htq with e | hlt
  · rw [e, sub_self, sub_self, mul_zero]
  · obtain ⟨c, hc, he⟩ := exists_hasDerivAt_eq_slope F f hlt (fun x _ => (h.hF x).continuousAt.continuousWithinAt) (fun x _ => h.hF x)
    rw [eq_div_iff (sub_pos.2 hlt).ne'] at he
    rw [← he]
    exact mul_le_mul_of_nonneg_right (h.hanti hc.1.le) (sub_pos.2 hlt).le

theorem Dens.quantile_iff {F f : ℝ → ℝ} (h : Dens F f) {lo hi r q : ℝ} (hlo : lo ≤ hi) (hr : 0 ≤ r ∧ r ≤ 1) :
    IsQuantile f lo hi r q ↔ F q = (1 - r) * F lo + r * F hi := by
  unfold IsQuantile
  rw [h.integral, h.integral]
  constructor
  · rintro ⟨_, _, e⟩
    linarith
  · intro e
    have hm := h.strictMono.monotone hlo
    refine ⟨?_, ?_, by linarith⟩
    · rw [← h.strictMono.le_iff_le, e]
      nlinarith [mul_nonneg hr.1 (sub_nonneg.2 hm)]
    · rw [← h.strictMono.le_iff_le, e]
      nlinarith [mul_nonneg (sub_nonneg.2 hr.2) (sub_nonneg.2 hm)]

/-- every fraction has exactly one quantile. -/
theorem Dens.quantile_exists {F f : ℝ → ℝ} (h : Dens F f) {lo hi r : ℝ} (hlo : lo ≤ hi) (hr : 0 ≤ r ∧ r ≤ 1) : ∃! q, IsQuantile f lo hi r q := by
  have hm := h.strictMono.monotone hlo
  have hc : ContinuousOn F (Icc lo hi) := fun x _ => (h.hF x).continuousAt.continuousWithinAt
  have : (1 - r) * F lo + r * F hi ∈ Icc (F lo) (F hi) := by
    constructor
    · nlinarith [mul_nonneg hr.1 (sub_nonneg.2 hm)]
    · nlinarith [mul_nonneg (sub_nonneg.2 hr.2) (sub_nonneg.2 hm)]
  obtain ⟨q, _, hq⟩ := intermediate_value_Icc hlo hc this
  refine ⟨q, (h.quantile_iff hlo hr).2 hq, fun q' hq' => ?_⟩
  exact h.strictMono.injective (((h.quantile_iff hlo hr).1 hq').trans hq.symm)

/-- if the fraction is uniformly distributed, the quantile is distributed according to the density between the limits. -/
theorem Dens.law {F f : ℝ → ℝ} (h : Dens F f) {lo hi x : ℝ} (hlo : lo < hi) (hx : lo ≤ x) (hx' : x ≤ hi) (T : ℝ → ℝ)
    (hT : ∀ r, 0 < r → r < 1 → IsQuantile f lo hi r (T r)) :
    volume {r | (0 < r ∧ r < 1) ∧ T r ≤ x} = ENNReal.ofReal ((∫ s in lo..x, f s) / ∫ s in lo..hi, f s) := by
  have hI : 0 < F hi - F lo := sub_pos.2 (h.strictMono hlo)
  obtain ⟨ρ, hρ⟩ : ∃ ρ, ρ = (F x - F lo) / (F hi - F lo) := ⟨_, rfl⟩
  have hρ0 : 0 ≤ ρ := by rw [hρ]; exact div_nonneg (sub_nonneg.2 (h.strictMono.monotone hx)) hI.le
  have hρ1 : ρ ≤ 1 := by rw [hρ, div_le_one hI]; linarith [h.strictMono.monotone hx']
  rw [h.integral, h.integral, ← hρ]
  have hset : {r | (0 < r ∧ r < 1) ∧ T r ≤ x} = {r | (0 < r ∧ r < 1) ∧ r ≤ ρ} := by
    ext r
    refine and_congr_right fun hr => ?_
    have hq := (h.quantile_iff hlo.le ⟨hr.1.le, hr.2.le⟩).1 (hT r hr.1 hr.2)
    rw [← h.strictMono.le_iff_le, hq, hρ, le_div_iff₀ hI]
    constructor <;> intro h <;> linarith
  rw [hset]
  have h1 : Ioo 0 ρ ⊆ {r | (0 < r ∧ r < 1) ∧ r ≤ ρ} := fun r hr => ⟨⟨hr.1, lt_of_lt_of_le hr.2 hρ1⟩, hr.2.le⟩
  have h2 : {r | (0 < r ∧ r < 1) ∧ r ≤ ρ} ⊆ Ioc 0 ρ := fun r hr => ⟨hr.1.1, hr.2⟩
  refine le_antisymm ((measure_mono h2).trans ?_) (le_trans ?_ (measure_mono h1))
  · rw [Real.volume_Ioc, sub_zero]
  · rw [Real.volume_Ioo, sub_zero]

/-! ### one exponential -/

/-- generatorPickerFunctions.cc:240-247. -/
noncomputable def single (p lo hi r : ℝ) : ℝ := Real.log (r * (Real.exp (p * hi) - Real.exp (p * lo)) + Real.exp (p * lo)) / p

theorem shape_single (p t : ℝ) : shape [p] t = Real.exp (p * t) := by
  show 1 * Real.exp (p * t) + 0 = _
  rw [one_mul, add_zero]

theorem falling_single {p : ℝ} (hp : p < 0) : Falling [p] := ⟨rfl, fun e he => by
  rw [List.mem_singleton.1 he]
  exact ⟨zero_le_one, hp⟩⟩

theorem single_quantile {p lo hi r : ℝ} (hp : p < 0) (hlo : lo ≤ hi) (hr : 0 ≤ r ∧ r ≤ 1) : IsQuantile (shape [p]) lo hi r (single p lo hi r) := by
  refine ((dens_shape _ (falling_single hp)).quantile_iff hlo hr).2 ?_
  have hF : ∀ t, primSum (exponentials [p]) t = Real.exp (p * t) / p := fun t => by
    show 1 * Real.exp (p * t) / p + 0 = _
    rw [one_mul, add_zero]
  rw [hF, hF, hF]
  have hy : 0 < r * (Real.exp (p * hi) - Real.exp (p * lo)) + Real.exp (p * lo) := by
    have h1 := Real.exp_pos (p * hi)
    have h2 := Real.exp_pos (p * lo)
    have : r * (Real.exp (p * hi) - Real.exp (p * lo)) + Real.exp (p * lo) = r * Real.exp (p * hi) + (1 - r) * Real.exp (p * lo) := by ring
    rw [this]
    rcases eq_or_lt_of_le hr.1 with h0 | h0
    · rw [← h0]; linarith
    · exact add_pos_of_pos_of_nonneg (mul_pos h0 h1) (mul_nonneg (sub_nonneg.2 hr.2) h2.le)
  have he : Real.exp (p * single p lo hi r) = r * (Real.exp (p * hi) - Real.exp (p * lo)) + Real.exp (p * lo) := by
    unfold single
    rw [mul_div_cancel₀ _ hp.ne, Real.exp_log hy]
  rw [he]
  ring

/-! ### Newton's method -/

/-- Newton's method from the left of the quantile: it never passes it, and what it returns meets one of the two accuracy goals. -/
theorem newton_sound {F f : ℝ → ℝ} (h : Dens F f) {eps Fmin Fmax r q : ℝ} (hq : F q = (1 - r) * Fmin + r * Fmax) :
    ∀ (k : ℕ) (t t' : ℝ), t ≤ q → newton eps F f Fmin Fmax r k t = some t' → t ≤ t' ∧ t' ≤ q ∧
      (F q - F t' < 10 * (r * (Fmax - Fmin) * eps) ∨ (F q - F t') / f t' < 10 * (t' * eps)) := by
  intro k
  induction k with
  | zero =>
    intro t t' ht hN
    unfold newton at hN
    dsimp only at hN
    have hFt := h.strictMono.monotone ht
    by_cases h1 : |F t - Fmin - r * (Fmax - Fmin)| < 10 * (r * (Fmax - Fmin) * eps)
    · rw [if_pos h1] at hN
      cases Option.some.inj hN
      refine ⟨le_rfl, ht, Or.inl ?_⟩
      have := neg_abs_le (F t - Fmin - r * (Fmax - Fmin))
      linarith
    · rw [if_neg h1] at hN
      have hu : (F t - r * Fmax - (1 - r) * Fmin) / f t = -((F q - F t) / f t) := by
        rw [hq, ← neg_div]
        congr 1
        ring
      rw [hu] at hN
      by_cases h2 : |-((F q - F t) / f t)| < 10 * (t * eps)
      · rw [if_pos h2] at hN
        cases Option.some.inj hN
        refine ⟨le_rfl, ht, Or.inr ?_⟩
        rw [abs_neg] at h2
        exact lt_of_le_of_lt (le_abs_self _) h2
      · rw [if_neg h2] at hN
        have h3 : ¬ (0 < -((F q - F t) / f t)) := by
          have := div_nonneg (sub_nonneg.2 hFt) (h.hpos t).le
          linarith
        rw [if_neg h3] at hN
        cases hN
  | succ k ih =>
    intro t t' ht hN
    unfold newton at hN
    dsimp only at hN
    have hFt := h.strictMono.monotone ht
    by_cases h1 : |F t - Fmin - r * (Fmax - Fmin)| < 10 * (r * (Fmax - Fmin) * eps)
    · rw [if_pos h1] at hN
      cases Option.some.inj hN
      refine ⟨le_rfl, ht, Or.inl ?_⟩
      have := neg_abs_le (F t - Fmin - r * (Fmax - Fmin))
      linarith
    · rw [if_neg h1] at hN
      have hu : (F t - r * Fmax - (1 - r) * Fmin) / f t = -((F q - F t) / f t) := by
        rw [hq, ← neg_div]
        congr 1
        ring
      rw [hu] at hN
      by_cases h2 : |-((F q - F t) / f t)| < 10 * (t * eps)
      · rw [if_pos h2] at hN
        cases Option.some.inj hN
        refine ⟨le_rfl, ht, Or.inr ?_⟩
        rw [abs_neg] at h2
        exact lt_of_le_of_lt (le_abs_self _) h2
      · rw [if_neg h2] at hN
        have h0 := div_nonneg (sub_nonneg.2 hFt) (h.hpos t).le
        have h3 : ¬ (0 < -((F q - F t) / f t)) := by linarith
        rw [if_neg h3] at hN
        have hstep : t - -((F q - F t) / f t) ≤ q := by
          have h4 : (F q - F t) / f t ≤ q - t := by
            rw [div_le_iff₀ (h.hpos t), mul_comm]
            exact h.tangent ht
          linarith
        obtain ⟨a, b, c⟩ := ih _ _ hstep hN
        exact ⟨by linarith, b, c⟩

end Rpwa.Pick

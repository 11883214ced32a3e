import Verif.Props.PickersPick
/-! Pickers: laws, rejection loop, defects -/
namespace Rpwa.Pick
open MeasureTheory Set

/-- **the law of t' for one exponential**: for a uniformly distributed random number the probability of t' ≤ x is the fraction of the exponential between the
minimum and x. -/
theorem pickT_law (eps : ℝ) (s : ExpPicker) (h : Ready s) (hn : s.nExp = 1) (m : ℝ) (hm : ∀ e ∈ s.slopes.head?, s.slopes.length = 1 ∨ m ≠ e.1)
    (ht : s.ranges.tLo < s.ranges.tHi) (x : ℝ) (hx : s.ranges.tLo ≤ x) (hx' : x ≤ s.ranges.tHi) : ∃ p, paramsFor s.slopes m = .ok [p] ∧ p < 0 ∧
      volume {r | (0 < r ∧ r < 1) ∧ ∃ t, s.pickT eps m [r] = .ok (some t) ∧ t ≤ x} =
        ENNReal.ofReal ((∫ u in s.ranges.tLo..x, Real.exp (p * u)) / ∫ u in s.ranges.tLo..s.ranges.tHi, Real.exp (p * u)) := by
  obtain ⟨p, _, hp, hp0, _, _⟩ := pickT_single eps s h hn m (1 / 2) [] ⟨by norm_num, by norm_num⟩ hm
  refine ⟨p, hp, hp0, ?_⟩
  have hD := dens_shape _ (falling_single hp0)
  have hval : ∀ r, 0 < r → r < 1 → s.pickT eps m [r] = .ok (some (single p s.ranges.tLo s.ranges.tHi r)) := by
    intro r _ _
    unfold ExpPicker.pickT
    rw [if_neg (by rw [h.hinit]; decide), if_neg (by simp [h.hne]), hp, Outcome.ok_bind, hn, if_neg (by simp), if_pos rfl]
    rfl
  have e1 : (fun u => Real.exp (p * u)) = shape [p] := funext fun u => (shape_single p u).symm
  have := hD.law ht hx hx' (single p s.ranges.tLo s.ranges.tHi) fun r h1 h2 => single_quantile hp0 h.ht ⟨h1.le, h2.le⟩
  rw [e1, ← this]
  congr 1
  ext r
  refine and_congr_right fun hr => ?_
  rw [hval r hr.1 hr.2]
  exact ⟨fun ⟨t, e, ht⟩ => by rw [← Option.some.inj (Outcome.ok.inj e)] at ht; exact ht, fun ht => ⟨_, rfl, ht⟩⟩

/-- the mass is uniformly distributed in its range: the random number `r` gives the mass that divides the range in the ratio `r : 1 - r`. -/
theorem pick_mass (eps : ℝ) (s : ExpPicker) (h : Ready s) (r : ℝ) (hr : 0 < r ∧ r < 1) (rs : List ℝ) (m t : ℝ) (hp : s.pick eps r rs = .ok (some (m, t))) :
    s.ranges.massLo ≤ m ∧ m ≤ s.ranges.massHi ∧ m - s.ranges.massLo = r * (s.ranges.massHi - s.ranges.massLo) ∧ s.pickT eps m rs = .ok (some t) := by
  unfold ExpPicker.pick at hp
  rw [if_neg (by rw [h.hinit]; decide)] at hp
  obtain ⟨t?, ht, hp⟩ := (bind_ok_iff _ _ _).1 hp
  cases t? with
  | none => cases Outcome.ok.inj hp
  | some t' =>
    have hp := Option.some.inj (Outcome.ok.inj hp)
    have h1 := congrArg Prod.fst hp
    have h2 := congrArg Prod.snd hp
    dsimp only at h1 h2
    subst h1 h2
    have := h.hmass
    refine ⟨?_, ?_, by ring, ht⟩
    · nlinarith [mul_nonneg hr.1.le (sub_nonneg.2 this)]
    · nlinarith [mul_nonneg (sub_nonneg.2 hr.2.le) (sub_nonneg.2 this)]

/-! ### when Newton's method never arrives -/

theorem step_le {p : List ℝ} (hf : Falling p) {a : ℝ} (ha : 0 < a) (hsl : ∀ e ∈ exponentials p, e.2 ≤ -a) (t q : ℝ) :
    (primSum (exponentials p) q - primSum (exponentials p) t) / shape p t ≤ 1 / a := by
  rw [div_le_iff₀ (shape_pos p hf t)]
  unfold shape
  have hE := hf.2
  generalize exponentials p = es at hsl hE
  induction es with
  | nil => simp [primSum, expSum]
  | cons e es ih =>
    have ih := ih (fun e he => hsl e (List.mem_cons_of_mem _ he)) (fun e he => hE e (List.mem_cons_of_mem _ he))
    have e1 : ∀ t, primSum (e :: es) t = e.1 * Real.exp (e.2 * t) / e.2 + primSum es t := fun _ => rfl
    have e2 : expSum (e :: es) t = e.1 * Real.exp (e.2 * t) + expSum es t := rfl
    rw [e1, e1, e2]
    obtain ⟨h1, h2⟩ := hE e List.mem_cons_self
    have h3 := hsl e List.mem_cons_self
    have key : e.1 * Real.exp (e.2 * q) / e.2 - e.1 * Real.exp (e.2 * t) / e.2 ≤ 1 / a * (e.1 * Real.exp (e.2 * t)) := by
      have q1 : e.1 * Real.exp (e.2 * q) / e.2 ≤ 0 := div_nonpos_of_nonneg_of_nonpos (mul_nonneg h1 (Real.exp_pos _).le) h2.le
      have q2 : -(e.1 * Real.exp (e.2 * t) / e.2) ≤ 1 / a * (e.1 * Real.exp (e.2 * t)) := by
        have q3 : -(1 / e.2) ≤ 1 / a := by
          rw [← one_div_neg_eq_neg_one_div]
          exact one_div_le_one_div_of_le ha (by linarith)
        have := mul_le_mul_of_nonneg_right q3 (mul_nonneg h1 (Real.exp_pos (e.2 * t)).le)
        refine le_trans (le_of_eq ?_) this
        ring
      linarith
    linarith

theorem step_ge {p : List ℝ} (hf : Falling p) {b : ℝ} (hb : 0 < b) (hsl : ∀ e ∈ exponentials p, -b ≤ e.2) {t q : ℝ} (htq : t ≤ q) :
    (1 - Real.exp (-b * (q - t))) / b ≤ (primSum (exponentials p) q - primSum (exponentials p) t) / shape p t := by
  rw [le_div_iff₀ (shape_pos p hf t)]
  have hD := dens_shape p hf
  have hge : ∀ s, t ≤ s → shape p t * Real.exp (-b * (s - t)) ≤ shape p s := by
    intro s hs
    unfold shape
    have hE := hf.2
    generalize exponentials p = es at hsl hE
    induction es with
    | nil => simp [expSum]
    | cons e es ih =>
      have ih := ih (fun e he => hsl e (List.mem_cons_of_mem _ he)) (fun e he => hE e (List.mem_cons_of_mem _ he))
      have e2 : ∀ t, expSum (e :: es) t = e.1 * Real.exp (e.2 * t) + expSum es t := fun _ => rfl
      rw [e2, e2, add_mul]
      refine add_le_add ?_ ih
      rw [mul_assoc, ← Real.exp_add]
      refine mul_le_mul_of_nonneg_left (Real.exp_le_exp.2 ?_) (hE e List.mem_cons_self).1
      nlinarith [mul_le_mul_of_nonneg_right (hsl e List.mem_cons_self) (sub_nonneg.2 hs)]
  obtain ⟨G, hG⟩ : ∃ G : ℝ → ℝ, G = fun s => primSum (exponentials p) s + shape p t * (Real.exp (-b * (s - t)) / b) := ⟨_, rfl⟩
  have hder : ∀ s, HasDerivAt G (shape p s - shape p t * Real.exp (-b * (s - t))) s := by
    intro s
    rw [hG]
    have h1 : HasDerivAt (fun s : ℝ => -b * (s - t)) (-b) s := by
      simpa using ((hasDerivAt_id s).sub_const t).const_mul (-b)
    have h2 := ((h1.exp.div_const b).const_mul (shape p t))
    have h3 := (hD.hF s).add h2
    have h4 : shape p t * (Real.exp (-b * (s - t)) * -b / b) = -(shape p t * Real.exp (-b * (s - t))) := by
      rw [mul_neg, neg_div, mul_div_assoc, div_self hb.ne', mul_one, mul_neg]
    rw [h4, ← sub_eq_add_neg] at h3
    exact h3
  have hmono : MonotoneOn G (Ici t) := by
    refine monotoneOn_of_deriv_nonneg (convex_Ici t) (fun s _ => (hder s).continuousAt.continuousWithinAt)
      (fun s _ => (hder s).differentiableAt.differentiableWithinAt) fun s hs => ?_
    rw [interior_Ici] at hs
    rw [(hder s).deriv]
    exact sub_nonneg.2 (hge s (le_of_lt hs))
  have := hmono (mem_Ici.2 le_rfl) (mem_Ici.2 htq) htq
  rw [hG] at this
  dsimp only at this
  rw [sub_self, mul_zero, Real.exp_zero] at this
  have e : (1 - Real.exp (-b * (q - t))) / b * shape p t = shape p t * (1 / b) - shape p t * (Real.exp (-b * (q - t)) / b) := by ring
  rw [e]
  linarith

/-- `k` steps of Newton's method from `t` cannot reach a minimum that is more than `k / a` away (`a`: smallest slope). -/
theorem newton_none {p : List ℝ} (hf : Falling p) {a b eps lo hi r : ℝ} (ha : 0 < a) (hb : 0 < b) (hsl : ∀ e ∈ exponentials p, e.2 ≤ -a ∧ -b ≤ e.2)
    (hlo : lo < hi) (hr : 0 < r ∧ r < 1) (he : 0 ≤ eps) (he' : 10 * eps ≤ 1) (K : ℝ) (hK : K < lo) (hacc : 10 * (K * eps) ≤ (1 - Real.exp (-b * (lo - K))) / b) :
    ∀ (k : ℕ) (t : ℝ), 0 ≤ t → t + k / a ≤ K →
      newton eps (primSum (exponentials p)) (shape p) (primSum (exponentials p) lo) (primSum (exponentials p) hi) r k t = none := by
  have hD := dens_shape p hf
  obtain ⟨q, hq, _⟩ := hD.quantile_exists hlo.le ⟨hr.1.le, hr.2.le⟩
  have hFq := (hD.quantile_iff hlo.le ⟨hr.1.le, hr.2.le⟩).1 hq
  have hΔ : 0 < primSum (exponentials p) hi - primSum (exponentials p) lo := sub_pos.2 (hD.strictMono hlo)
  have common : ∀ t, 0 ≤ t → t ≤ K → ¬ (|primSum (exponentials p) t - primSum (exponentials p) lo -
        r * (primSum (exponentials p) hi - primSum (exponentials p) lo)| < 10 * (r * (primSum (exponentials p) hi - primSum (exponentials p) lo) * eps)) ∧
      (primSum (exponentials p) t - r * primSum (exponentials p) hi - (1 - r) * primSum (exponentials p) lo) / shape p t =
        -((primSum (exponentials p) q - primSum (exponentials p) t) / shape p t) ∧
      ¬ (|-((primSum (exponentials p) q - primSum (exponentials p) t) / shape p t)| < 10 * (t * eps)) ∧
      ¬ (0 < -((primSum (exponentials p) q - primSum (exponentials p) t) / shape p t)) := by
    intro t ht0 ht
    have hFt : primSum (exponentials p) t < primSum (exponentials p) lo := hD.strictMono (lt_of_le_of_lt ht hK)
    have hFq' := hD.strictMono.monotone hq.1
    have htq : t ≤ q := (ht.trans hK.le).trans hq.1
    have hrΔ : 0 < r * (primSum (exponentials p) hi - primSum (exponentials p) lo) := mul_pos hr.1 hΔ
    refine ⟨?_, ?_, ?_, ?_⟩
    · rw [not_lt]
      refine le_trans ?_ (neg_le_abs _)
      nlinarith [mul_le_mul_of_nonneg_left he' hrΔ.le]
    · rw [hFq, ← neg_div]
      congr 1
      ring
    · rw [not_lt, abs_neg]
      refine le_trans ?_ (le_abs_self _)
      refine le_trans ?_ (step_ge hf hb (fun e he => (hsl e he).2) htq)
      refine le_trans ?_ (hacc.trans ?_)
      · nlinarith [mul_le_mul_of_nonneg_right ht he]
      · refine div_le_div_of_nonneg_right ?_ hb.le
        have : Real.exp (-b * (q - t)) ≤ Real.exp (-b * (lo - K)) := Real.exp_le_exp.2 (by nlinarith [hq.1])
        linarith
    · have := div_nonneg (sub_nonneg.2 (hD.strictMono.monotone htq)) (hD.hpos t).le
      linarith
  intro k
  induction k with
  | zero =>
    intro t ht0 ht
    rw [Nat.cast_zero, zero_div, add_zero] at ht
    obtain ⟨c1, c2, c3, c4⟩ := common t ht0 ht
    unfold newton
    dsimp only
    rw [if_neg c1, c2, if_neg c3, if_neg c4]
  | succ k ih =>
    intro t ht0 ht
    have hk : (0 : ℝ) ≤ k / a := div_nonneg (Nat.cast_nonneg k) ha.le
    have hdiv : ((k + 1 : ℕ) : ℝ) / a = k / a + 1 / a := by rw [Nat.cast_succ, add_div]
    rw [hdiv] at ht
    have ha' : 0 < 1 / a := one_div_pos.2 ha
    obtain ⟨c1, c2, c3, c4⟩ := common t ht0 (by linarith)
    unfold newton
    dsimp only
    rw [if_neg c1, c2, if_neg c3, if_neg c4]
    have htq : t ≤ q := (by linarith : t ≤ lo).trans hq.1
    have s1 := step_le hf ha (fun e he => (hsl e he).1) t q
    have s2 := div_nonneg (sub_nonneg.2 (hD.strictMono.monotone htq)) (hD.hpos t).le
    exact ih _ (by linarith) (by linarith)

/-- **defect**: if the minimum of t' is more than 50 decay lengths away from zero (`50 / a < tPrimeMin` for the slope `-a` closest to zero), nothing is ever
picked, whatever the random numbers. -/
theorem pickT_never (eps : ℝ) (s : ExpPicker) (h : Ready s) (hn : 1 < s.nExp) (m : ℝ) (p : List ℝ) (hp : paramsFor s.slopes m = .ok p)
    (hl : p.length = 2 * s.nExp - 1) (hf : Falling p) (a b : ℝ) (ha : 0 < a) (hb : 0 < b) (hsl : ∀ e ∈ exponentials p, e.2 ≤ -a ∧ -b ≤ e.2)
    (ht : s.ranges.tLo < s.ranges.tHi) (he : 0 ≤ eps) (he' : 10 * eps ≤ 1) (hfar : 50 / a < s.ranges.tLo)
    (hacc : 10 * (50 / a * eps) ≤ (1 - Real.exp (-b * (s.ranges.tLo - 50 / a))) / b) (rs : List ℝ) (hr : Uniforms rs) : s.pickT eps m rs = .ok none := by
  rw [pickT_newton eps s h hn m rs p hp hl]
  congr 1
  cases hN : newtonTries eps (primSum (exponentials p)) (shape p) (primSum (exponentials p) s.ranges.tLo) (primSum (exponentials p) s.ranges.tHi) 5 rs with
  | none => rfl
  | some t =>
    obtain ⟨r, hr5, hN⟩ := newtonTries_some _ _ _ _ _ _ _ _ hN
    have := newton_none hf ha hb hsl ht (hr r (List.mem_of_mem_take hr5)) he he' (50 / a) hfar hacc 50 0 le_rfl (by rw [zero_add]; exact le_of_eq (by norm_num))
    rw [this] at hN
    cases hN

/-- **defect**: a negative minimum of t' (which `init` accepts) makes the picker return 0 whenever the quantile is negative: 0 is where the search starts. -/
theorem newton_negative {F f : ℝ → ℝ} (h : Dens F f) {eps Fmin Fmax r q : ℝ} (hq : F q = (1 - r) * Fmin + r * Fmax) (hq0 : q < 0) (k : ℕ) :
    newton eps F f Fmin Fmax r k 0 = some 0 := by
  unfold newton
  dsimp only
  split_ifs with h1 h2 h3
  · rfl
  · rfl
  · rfl
  · exfalso
    apply h3
    refine div_pos ?_ (h.hpos 0)
    have := h.strictMono hq0
    linarith

end Rpwa.Pick

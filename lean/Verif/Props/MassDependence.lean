import Verif.Model.MassDependence
import Verif.Spec.MassDependence
import Verif.Props.PhysUtils

/-!
# C56: amplitudes of resonances
-/

namespace Rpwa.MassDep

open Spec Rpwa.Phys Rpwa.Phys.Spec

/-! ## Breit-Wigner amplitudes -/

theorem fdiv_some {a b : ℝ} (h : b ≠ 0) : fdiv a b = some (a / b) := if_neg h
theorem fdiv_zero (a : ℝ) : fdiv a 0 = none := if_pos rfl
theorem cdiv_some {a b : ℂ} (h : b ≠ 0) : cdiv a b = some (a / b) := if_neg h

theorem bwDen_ne {B C : ℝ} (h : B ≠ 0 ∨ C ≠ 0) : ((B : ℂ) - Complex.I * (C : ℂ)) ≠ 0 := by
  intro e
  have h1 := congrArg Complex.re e
  have h2 := congrArg Complex.im e
  simp at h1 h2
  rcases h with h | h
  · exact h h1
  · exact h h2

theorem bwForm_some {A B C : ℝ} (h : B ≠ 0 ∨ C ≠ 0) :
    bwForm A B C = some ((A : ℂ) / ((B : ℂ) - Complex.I * (C : ℂ))) := by
  have hp : B * B + C * C ≠ 0 := by
    intro e
    rcases h with h | h
    · nlinarith [mul_self_pos.mpr h, mul_self_nonneg C]
    · nlinarith [mul_self_pos.mpr h, mul_self_nonneg B]
  unfold bwForm
  rw [fdiv_some hp]
  show some _ = some _
  congr 1
  rw [eq_div_iff (bwDen_ne h)]
  have e1 : ((⟨B, C⟩ : ℂ)) * ((B : ℂ) - Complex.I * (C : ℂ)) = ((B * B + C * C : ℝ) : ℂ) := by
    apply Complex.ext
    · simp
    · simp; ring
  rw [mul_assoc, e1, ← Complex.ofReal_mul, div_mul_cancel₀ _ hp]

theorem bwForm_none {A : ℝ} : bwForm A 0 0 = none := by
  unfold bwForm
  rw [show (0 : ℝ) * 0 + 0 * 0 = 0 by norm_num, fdiv_zero]
  rfl

/-- optical theorem of `A / (B - iC)` -/
theorem bw_optical {A B C : ℝ} (h : B ≠ 0 ∨ C ≠ 0) :
    C * Complex.normSq ((A : ℂ) / ((B : ℂ) - Complex.I * (C : ℂ)))
      = A * ((A : ℂ) / ((B : ℂ) - Complex.I * (C : ℂ))).im := by
  rw [Complex.normSq_div, Complex.div_im]
  have e : Complex.normSq ((B : ℂ) - Complex.I * (C : ℂ)) = B * B + C * C := by
    rw [Complex.normSq_apply]; simp
  have hp : B * B + C * C ≠ 0 := by
    rw [← e]; exact fun h0 => bwDen_ne h (Complex.normSq_eq_zero.mp h0)
  rw [e, Complex.normSq_ofReal]
  simp
  field_simp

theorem breakupF_eq {M m1 m2 : ℝ} (hM : M ≠ 0) : breakupF M m1 m2 = breakupMomentum M m1 m2 := by
  unfold breakupF breakupSquaredF breakupMomentum
  rw [if_neg hM]

/-- barrier factors of positive momenta are positive -/
theorem barrier_pos {n : ℕ} (hn : n ≤ 7) {q : ℝ} (hq : 0 < q) : 0 < barrierFactorSquared (2 * n) q := by
  rcases Nat.eq_zero_or_pos n with rfl | h1
  · unfold barrierFactorSquared barrierFactorSquaredZ; norm_num
  · obtain ⟨h, h', _⟩ := barrierFactorSquared_mono h1 hn (Pr := 0.1973) (by norm_num) le_rfl hq
    linarith

/-- **C56**: the relativistic Breit-Wigner amplitude of every event: denominator with the width of the
decay at the mass of the event; for a nominal mass below threshold the modulus of the squared breakup
momentum is used; at threshold exactly, the amplitude is 0 -/
theorem relBW_spec (I : Option ℂ) (v : Vtx) {n : ℕ} (hst : v.stable = true) (hL : v.L = 2 * n) (hn : n ≤ 7)
    (hM0 : 0 < v.M0) (hG : 0 < v.Gamma0) (h1 : 0 ≤ v.m1) (h2 : 0 ≤ v.m2) (hM : 0 < v.M)
    (hthr : v.m1 + v.m2 ≤ v.M) :
    ∃ q q0, Decays v.M v.m1 v.m2 q ∧ 0 ≤ q0 ∧
      4 * v.M0 ^ 2 * q0 ^ 2 = |(v.M0 ^ 2 - (v.m1 + v.m2) ^ 2) * (v.M0 ^ 2 - (v.m1 - v.m2) ^ 2)| ∧
      (q0 = 0 → relBW I v = some 0) ∧
      (q0 ≠ 0 → relBW I v = some (bw (v.M0 * v.Gamma0) v.M v.M0 (width v.Gamma0 v.M v.M0 n q q0))) := by
  obtain ⟨q, hq, hq0⟩ := Gen.breakup_isSome hthr
  have hd := (breakupMomentum_iff hM h1 h2).mp hq
  obtain ⟨x, hx⟩ : ∃ x, x = (v.M0 - (v.m1 + v.m2)) * (v.M0 + (v.m1 + v.m2)) * (v.M0 - (v.m1 - v.m2))
    * (v.M0 + (v.m1 - v.m2)) / (4 * v.M0 * v.M0) := ⟨_, rfl⟩
  have hx2 : 4 * v.M0 ^ 2 * x = (v.M0 ^ 2 - (v.m1 + v.m2) ^ 2) * (v.M0 ^ 2 - (v.m1 - v.m2) ^ 2) := by
    rw [hx]; field_simp; ring
  have hb : breakupSquaredF v.M0 v.m1 v.m2 true = some x := by
    unfold breakupSquaredF breakupMomentumSquared
    rw [if_neg hM0.ne', hx]
    simp
  have e : relBW I v = breitWignerF v.M v.M0 v.Gamma0 v.L q (Real.sqrt |x|) := by
    unfold relBW
    rw [if_pos hst, breakupF_eq hM.ne', hq, hb]
    rfl
  refine ⟨q, Real.sqrt |x|, hd, Real.sqrt_nonneg _, ?_, ?_, ?_⟩
  · rw [Real.sq_sqrt (abs_nonneg _), ← hx2, abs_mul, abs_of_pos (show 0 < 4 * v.M0 ^ 2 by positivity)]
  · intro h0
    rw [e, h0]
    unfold breitWignerF
    rw [if_pos rfl]
  · intro h0
    have hp : 0 < Real.sqrt |x| := lt_of_le_of_ne (Real.sqrt_nonneg _) (Ne.symm h0)
    rw [e]
    generalize hq0' : Real.sqrt |x| = q0 at *
    unfold breitWignerF
    have hbar : barrierFactorSquared v.L q0 ≠ 0 := by rw [hL]; exact (barrier_pos hn hp).ne'
    rw [if_neg h0, fdiv_some hM.ne', fdiv_some hbar]
    show bwForm _ _ _ = _
    have ew : v.Gamma0 * (v.M0 / v.M) * (q / q0) * (barrierFactorSquared v.L q / barrierFactorSquared v.L q0)
        = width v.Gamma0 v.M v.M0 n q q0 := by
      unfold width
      rw [hL, barrierFactorSquared_spec hn (by norm_num), barrierFactorSquared_spec hn (by norm_num),
        div_div_div_cancel_right₀]
      have := barrier_pos hn (q := 0.1973) (by norm_num)
      rw [barrierFactorSquared_spec hn (by norm_num)] at this
      intro h
      rw [h, div_zero] at this
      exact lt_irrefl _ this
    rw [ew, bwForm_some]
    · unfold bw
      rw [show v.M0 * v.M0 - v.M * v.M = v.M0 ^ 2 - v.M ^ 2 by ring]
    · -- the denominator vanishes only if the event and the nominal mass are both at threshold
      by_contra hc
      push Not at hc
      obtain ⟨c1, c2⟩ := hc
      have hMM : v.M = v.M0 := by
        have : v.M ^ 2 = v.M0 ^ 2 := by linarith [sq v.M, sq v.M0]
        exact (pow_left_inj₀ hM.le hM0.le two_ne_zero).mp this
      have hxx : x = q ^ 2 := by
        have := (Gen.breakup_closed hM h1 h2 hthr hq).2
        rw [← hMM] at hx2
        have h4 : (4 * v.M ^ 2) ≠ 0 := by positivity
        exact mul_left_cancel₀ h4 (hx2.trans this.symm)
      have hqq : q0 = q := by rw [← hq0', hxx, abs_of_nonneg (by positivity), Real.sqrt_sq hq0]
      rw [← ew, hqq, div_self (hqq ▸ hp.ne'), div_self (hqq ▸ hbar), hMM, div_self hM0.ne'] at c2
      have : v.M0 * v.Gamma0 = 0 := by linarith
      rcases mul_eq_zero.mp this with h | h
      · exact hM0.ne' h
      · exact hG.ne' h

/-- **C56**: optical theorem for the relativistic Breit-Wigner amplitude: `Gamma(M) |T|² = Gamma0 Im T`;
at the nominal mass its value is `i` -/
theorem bw_spec {M M0 Gamma0 G : ℝ} (hM0 : 0 < M0) (h : M ^ 2 ≠ M0 ^ 2 ∨ G ≠ 0) :
    G * Complex.normSq (bw (M0 * Gamma0) M M0 G) = Gamma0 * (bw (M0 * Gamma0) M M0 G).im ∧
    (Gamma0 ≠ 0 → bw (M0 * Gamma0) M0 M0 Gamma0 = Complex.I) := by
  constructor
  · have hd : (M0 ^ 2 - M ^ 2 ≠ 0) ∨ (M0 * G ≠ 0) := by
      rcases h with h | h
      · exact Or.inl (sub_ne_zero.mpr h.symm)
      · exact Or.inr (mul_ne_zero hM0.ne' h)
    have := bw_optical (A := M0 * Gamma0) hd
    unfold bw
    apply mul_left_cancel₀ hM0.ne'
    linarith
  · intro hG
    unfold bw
    have : ((M0 * Gamma0 : ℝ) : ℂ) ≠ 0 := by
      exact_mod_cast mul_ne_zero hM0.ne' hG
    rw [sub_self, Complex.ofReal_zero, zero_sub, div_eq_iff (neg_ne_zero.mpr (mul_ne_zero Complex.I_ne_zero this))]
    linear_combination ((M0 * Gamma0 : ℝ) : ℂ) * Complex.I_mul_I

/-- **C56**: above the implemented orbital angular momenta the amplitude is not a number (0/0) -/
theorem relBW_highL (I : Option ℂ) (v : Vtx) (hst : v.stable = true) (hL : ¬ ∃ n : ℕ, n ≤ 7 ∧ v.L = 2 * n)
    {x : ℝ} (hx : breakupMomentumSquared v.M0 v.m1 v.m2 true = some x) (h0 : x ≠ 0) : relBW I v = none := by
  unfold relBW
  rw [if_pos hst]
  cases breakupF v.M v.m1 v.m2 with
  | none => rfl
  | some q =>
    change Option.bind (some q) _ = _
    rw [Option.bind_some]
    unfold breakupSquaredF
    split
    · rfl
    · rw [hx]
      change Option.bind (some x) _ = _
      rw [Option.bind_some]
      unfold breitWignerF
      have hp : Real.sqrt |x| ≠ 0 := (Real.sqrt_pos.mpr (abs_pos.mpr h0)).ne'
      rw [if_neg hp]
      cases fdiv v.M0 v.M with
      | none => rfl
      | some r =>
        change Option.bind (some r) _ = _
        rw [Option.bind_some, barrierFactorSquared_other hL, barrierFactorSquared_other hL, fdiv_zero]
        rfl

/-- **C56**: constant-width amplitude: defined for every mass, elastic unitarity, `i` at the nominal mass -/
theorem constWidth_spec (v : Vtx) (hM0 : 0 < v.M0) (hG : v.Gamma0 ≠ 0) :
    constWidth v = some (bw (v.M0 * v.Gamma0) v.M v.M0 v.Gamma0) ∧
    Unitary 1 (bw (v.M0 * v.Gamma0) v.M v.M0 v.Gamma0) := by
  constructor
  · unfold constWidth
    dsimp only
    rw [bwForm_some (Or.inr (mul_ne_zero hM0.ne' hG))]
    unfold bw
    rw [show v.M0 * v.M0 - v.M * v.M = v.M0 ^ 2 - v.M ^ 2 by ring]
  · have := (bw_spec (M := v.M) (Gamma0 := v.Gamma0) hM0 (Or.inr hG)).1
    unfold Unitary
    rw [one_mul]
    exact (mul_left_cancel₀ hG this).symm

/-! ## amplitudes for rho(770) and f0(980) -/

theorem breakup_some {M m1 m2 : ℝ} (hM : 0 < M) (h1 : 0 ≤ m1) (h2 : 0 ≤ m2) (h : m1 + m2 ≤ M) :
    ∃ q, Decays M m1 m2 q ∧ breakupF M m1 m2 = some q ∧ breakupSquaredF M m1 m2 false = some (q ^ 2) ∧
      (m1 + m2 < M → 0 < q) := by
  obtain ⟨q, hq, hq0⟩ := Gen.breakup_isSome h
  have hc := Gen.breakup_closed hM h1 h2 h hq
  refine ⟨q, (breakupMomentum_iff hM h1 h2).mp hq, by rw [breakupF_eq hM.ne', hq], ?_, ?_⟩
  · have hn : 0 ≤ (M - (m1 + m2)) * (M + (m1 + m2)) * (M - (m1 - m2)) * (M + (m1 - m2)) / (4 * M * M) := by
      refine div_nonneg (mul_nonneg (mul_nonneg (mul_nonneg ?_ ?_) ?_) ?_) (by positivity) <;> linarith
    unfold breakupSquaredF breakupMomentumSquared
    dsimp only
    rw [if_neg hM.ne', if_neg (fun hx => absurd hx.2 (not_lt.mpr h)),
      if_neg (fun hx => absurd hx.2 (not_lt.mpr hn))]
    congr 1
    rw [div_eq_iff (by positivity)]
    linarith [hc.2]
  · intro hlt
    refine lt_of_le_of_ne hq0 fun h0 => ?_
    rw [← h0] at hc
    have h3 : 0 < (M ^ 2 - (m1 + m2) ^ 2) * (M ^ 2 - (m1 - m2) ^ 2) := by
      apply mul_pos <;> nlinarith
    rw [← hc.2] at h3
    norm_num at h3

theorem breakup_abort {M m1 m2 : ℝ} (h : M < m1 + m2) : breakupF M m1 m2 = none ∧
    breakupSquaredF M m1 m2 false = none := by
  have : breakupSquaredF M m1 m2 false = none := by
    unfold breakupSquaredF breakupMomentumSquared
    dsimp only
    split
    · rfl
    · rw [if_pos ⟨rfl, h⟩]
  exact ⟨by unfold breakupF; rw [this]; rfl, this⟩

/-- **C56**: rho(770) amplitude above threshold, for a nominal mass above threshold: Breit-Wigner
amplitude with the factor `F = 2 q² / (q0² + q²)` in the width and its root in the numerator -/
theorem rhoBW_spec (v : Vtx) (hG : 0 < v.Gamma0) (h1 : 0 ≤ v.m1) (h2 : 0 ≤ v.m2) (hM : 0 < v.M)
    (hthr : v.m1 + v.m2 ≤ v.M) (hthr0 : v.m1 + v.m2 < v.M0) :
    ∃ q q0, Decays v.M v.m1 v.m2 q ∧ Decays v.M0 v.m1 v.m2 q0 ∧
      rhoBW v = some (bw (v.M0 * v.Gamma0 * Real.sqrt (2 * q ^ 2 / (q0 ^ 2 + q ^ 2))) v.M v.M0
        (v.Gamma0 * (v.M0 / v.M) * (q / q0) * (2 * q ^ 2 / (q0 ^ 2 + q ^ 2)))) := by
  have hM0 : 0 < v.M0 := by linarith
  obtain ⟨q, hd, _, e, _⟩ := breakup_some hM h1 h2 hthr
  obtain ⟨q0, hd0, _, e0, hp⟩ := breakup_some hM0 h1 h2 hthr0.le
  have hq0 := hp hthr0
  refine ⟨q, q0, hd, hd0, ?_⟩
  unfold rhoBW
  rw [e, e0]
  change (fdiv (2 * q ^ 2) (q0 ^ 2 + q ^ 2)).bind _ = _
  rw [fdiv_some (by positivity), Option.bind_some]
  change (fdiv v.M0 v.M).bind _ = _
  rw [fdiv_some hM.ne', Option.bind_some, Real.sqrt_sq hq0.le, Real.sqrt_sq hd.1]
  change (fdiv q q0).bind _ = _
  rw [fdiv_some hq0.ne', Option.bind_some, bwForm_some]
  · unfold bw
    rw [show v.M0 * v.M0 - v.M * v.M = v.M0 ^ 2 - v.M ^ 2 by ring]
  · by_cases hMM : v.M = v.M0
    · right
      rw [hMM] at hd
      have := decays_unique hd hd0
      rw [this, hMM]
      positivity
    · left
      intro h
      apply hMM
      have : v.M ^ 2 = v.M0 ^ 2 := by linarith [sq v.M, sq v.M0]
      exact (pow_left_inj₀ hM.le hM0.le two_ne_zero).mp this

/-- **C56**: at the nominal mass the rho(770) amplitude is `i` -/
theorem rhoBW_peak (v : Vtx) (hG : 0 < v.Gamma0) (h1 : 0 ≤ v.m1) (h2 : 0 ≤ v.m2) (hM : v.M = v.M0)
    (hthr0 : v.m1 + v.m2 < v.M0) : rhoBW v = some Complex.I := by
  have hM0 : 0 < v.M0 := by linarith
  obtain ⟨q, q0, hd, hd0, e⟩ := rhoBW_spec v hG h1 h2 (hM ▸ hM0) (hM ▸ hthr0.le) hthr0
  rw [hM] at hd
  have hq := decays_unique hd hd0
  obtain ⟨q', hd', _, _, hp⟩ := breakup_some hM0 h1 h2 hthr0.le
  have hq0 : 0 < q0 := decays_unique hd' hd0 ▸ hp hthr0
  rw [e, hq, hM, show 2 * q0 ^ 2 / (q0 ^ 2 + q0 ^ 2) = 1 by field_simp; norm_num, Real.sqrt_one, mul_one, mul_one,
    div_self hM0.ne', div_self hq0.ne', mul_one, mul_one, (bw_spec (M := v.M0) hM0 (Or.inr hG.ne')).2 hG.ne']

/-- **C56**: f0(980) amplitude above threshold, for a nominal mass above threshold -/
theorem f0980BW_spec (v : Vtx) (hG : 0 < v.Gamma0) (h1 : 0 ≤ v.m1) (h2 : 0 ≤ v.m2) (hM : 0 < v.M)
    (hthr : v.m1 + v.m2 < v.M) (hthr0 : v.m1 + v.m2 < v.M0) :
    ∃ q q0, Decays v.M v.m1 v.m2 q ∧ Decays v.M0 v.m1 v.m2 q0 ∧
      f0980BW v = some (bw (v.M0 * v.Gamma0 * v.M / q0) v.M v.M0 (v.Gamma0 * (q / q0))) := by
  have hM0 : 0 < v.M0 := by linarith
  obtain ⟨q, hd, e, _, hp'⟩ := breakup_some hM h1 h2 hthr.le
  obtain ⟨q0, hd0, e0, _, hp⟩ := breakup_some hM0 h1 h2 hthr0.le
  have hq0 := hp hthr0
  have hq := hp' hthr
  refine ⟨q, q0, hd, hd0, ?_⟩
  unfold f0980BW
  rw [e, e0]
  change (fdiv q q0).bind _ = _
  rw [fdiv_some hq0.ne', Option.bind_some]
  change (fdiv _ q).bind _ = _
  rw [fdiv_some hq.ne', Option.bind_some, bwForm_some (Or.inr (by positivity))]
  unfold bw
  rw [show v.M0 * v.M0 - v.M * v.M = v.M0 ^ 2 - v.M ^ 2 by ring,
    show v.M0 * (v.Gamma0 * (q / q0)) * v.M / q = v.M0 * v.Gamma0 * v.M / q0 by field_simp]

/-- **C56**: both abort for every event in which the daughters are heavier than the nominal mass of the
parent, although the event itself is above threshold; the relativistic Breit-Wigner amplitude does not -/
theorem rhoBW_abort (v : Vtx) (h : v.M0 < v.m1 + v.m2) : rhoBW v = none ∧ f0980BW v = none := by
  obtain ⟨a, b⟩ := breakup_abort h
  constructor
  · unfold rhoBW
    rw [b]
    cases breakupSquaredF v.M v.m1 v.m2 false <;> rfl
  · unfold f0980BW
    rw [a]
    cases breakupF v.M v.m1 v.m2 <;> rfl

/-- an event of mass 5 with daughters of masses 3 and 0: the three amplitudes for nominal mass 5 -/
example : ∃ q, Decays 5 3 0 q ∧ rhoBW ⟨5, 3, 0, 5, 1, 2, true⟩ = some Complex.I ∧
    rhoBW ⟨5, 3, 0, 2, 1, 2, true⟩ = none := by
  obtain ⟨q, hd, _⟩ := breakup_some (M := 5) (m1 := 3) (m2 := 0) (by norm_num) (by norm_num) le_rfl (by norm_num)
  exact ⟨q, hd, rhoBW_peak ⟨5, 3, 0, 5, 1, 2, true⟩ (by norm_num) (by norm_num) le_rfl rfl (by norm_num),
    (rhoBW_abort ⟨5, 3, 0, 2, 1, 2, true⟩ (by norm_num)).1⟩

/-! ## phase space of channels -/

theorem phaseSpace_eq {M m1 m2 q : ℝ} (hM : 0 < M) (h1 : 0 ≤ m1) (h2 : 0 ≤ m2) (h : m1 + m2 ≤ M)
    (hd : Decays M m1 m2 q) : 2 * q / M = phaseSpace M m1 m2 := by
  have hq := (breakupMomentum_iff hM h1 h2).mpr hd
  obtain ⟨h0, hc⟩ := Gen.breakup_closed hM h1 h2 h hq
  unfold phaseSpace
  rw [← hc, show 4 * M ^ 2 * q ^ 2 = (2 * M * q) ^ 2 by ring, Real.sqrt_sq (by positivity)]
  field_simp

theorem phaseSpace_pos {M m1 m2 : ℝ} (hM : 0 < M) (h1 : 0 ≤ m1) (h2 : 0 ≤ m2) (h : m1 + m2 < M) :
    0 < phaseSpace M m1 m2 := by
  obtain ⟨q, hd, _, _, hp⟩ := breakup_some hM h1 h2 h.le
  rw [← phaseSpace_eq hM h1 h2 h.le hd]
  have := hp h
  positivity

theorem phaseSpace_nonneg (M m1 m2 : ℝ) : 0 ≤ phaseSpace M m1 m2 := by
  unfold phaseSpace; positivity

/-- open channel -/
theorem rho_open {M m1 m2 : ℝ} (hM : 0 < M) (h1 : 0 ≤ m1) (h2 : 0 ≤ m2) (h : m1 + m2 ≤ M) :
    ∃ k, breakupComplexF M m1 m2 = some k ∧ 2 * k / (M : ℂ) = ((phaseSpace M m1 m2 : ℝ) : ℂ) := by
  obtain ⟨k, e, _, h3, _⟩ := breakupMomentumComplex_spec hM h1 h2
  obtain ⟨hi, hd⟩ := h3 h
  refine ⟨k, by unfold breakupComplexF; rw [if_neg hM.ne', e], ?_⟩
  rw [← phaseSpace_eq hM h1 h2 h hd]
  have : k = (k.re : ℂ) := by
    apply Complex.ext
    · simp
    · simpa using hi
  rw [this]
  push_cast
  simp

/-- closed channel -/
theorem rho_closed {M m1 m2 : ℝ} (hM : 0 < M) (h1 : 0 ≤ m1) (h2 : 0 ≤ m2) (hd : |m1 - m2| < M)
    (h : M < m1 + m2) :
    ∃ k, breakupComplexF M m1 m2 = some k ∧ ∃ r : ℝ, 0 < r ∧ 2 * k / (M : ℂ) = Complex.I * (r : ℂ) := by
  obtain ⟨k, e, _, _, h4⟩ := breakupMomentumComplex_spec hM h1 h2
  obtain ⟨hr, hi⟩ := h4 hd h
  refine ⟨k, by unfold breakupComplexF; rw [if_neg hM.ne', e], 2 * k.im / M, by positivity, ?_⟩
  have : k = Complex.I * (k.im : ℂ) := by
    apply Complex.ext
    · simpa using hr
    · simp
  rw [this]
  push_cast
  simp
  ring

/-- channel of two equal masses: phase space is positive or `i` times a nonnegative number -/
theorem rho_equal {M m : ℝ} (hM : 0 < M) (h : 0 ≤ m) :
    ∃ k, breakupComplexF M m m = some k ∧ 0 ≤ (2 * k / (M : ℂ)).re ∧ 0 ≤ (2 * k / (M : ℂ)).im ∧
      (2 * m < M → 0 < (2 * k / (M : ℂ)).re) ∧
      (2 * m ≤ M → 2 * k / (M : ℂ) = ((phaseSpace M m m : ℝ) : ℂ)) ∧
      (M ≤ 2 * m → (2 * k / (M : ℂ)).re = 0) := by
  rcases lt_trichotomy (2 * m) M with h' | h' | h'
  · obtain ⟨k, e, r⟩ := rho_open hM h h (by linarith : m + m ≤ M)
    refine ⟨k, e, ?_, ?_, ?_, fun _ => r, fun h'' => absurd h'' (not_le.mpr h')⟩
    · rw [r]; exact phaseSpace_nonneg _ _ _
    · rw [r]; exact le_refl _
    · intro _; rw [r]; exact phaseSpace_pos hM h h (by linarith)
  · obtain ⟨k, e, r⟩ := rho_open hM h h (by linarith : m + m ≤ M)
    refine ⟨k, e, ?_, ?_, fun h'' => absurd h' h''.ne, fun _ => r, fun _ => ?_⟩
    · rw [r]; exact phaseSpace_nonneg _ _ _
    · rw [r]; exact le_refl _
    · rw [r, Complex.ofReal_re]
      unfold phaseSpace
      rw [← h', show (2 * m) ^ 2 - (m + m) ^ 2 = 0 by ring, zero_mul, Real.sqrt_zero, zero_div]
  · obtain ⟨k, e, x, hx, r⟩ := rho_closed hM h h (by simpa using hM) (by linarith : M < m + m)
    refine ⟨k, e, ?_, ?_, fun h'' => absurd h'' (not_lt.mpr h'.le), fun h'' => absurd h'' (not_le.mpr h'),
      fun _ => ?_⟩
    · rw [r]; simp
    · rw [r]; simp [hx.le]
    · rw [r]; simp

theorem inv_optical {d : ℂ} (h : d ≠ 0) : Unitary (-d.im) (1 / d) := by
  unfold Unitary
  have hn : Complex.normSq d ≠ 0 := fun h0 => h (Complex.normSq_eq_zero.mp h0)
  rw [one_div, Complex.inv_im, Complex.normSq_inv]
  field_simp

end Rpwa.MassDep

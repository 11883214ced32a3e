import Verif.Spec.PhysUtils
import Verif.Props.PhaseSpaceAll
import Mathlib.Algebra.Order.BigOperators.Group.Finset

/-!
# C55: breakup momenta, barrier factors and the borders of Dalitz plots
-/

namespace Rpwa.Phys

open Spec

/-! ## breakup momenta -/

/-- the energies of the daughters grow with their momentum -/
theorem decays_unique {M m1 m2 q q' : ℝ} (h : Decays M m1 m2 q) (h' : Decays M m1 m2 q') : q = q' := by
  obtain ⟨h0, e⟩ := h
  obtain ⟨h0', e'⟩ := h'
  have key : ∀ a b : ℝ, 0 ≤ a → a < b → Real.sqrt (m1 ^ 2 + a ^ 2) + Real.sqrt (m2 ^ 2 + a ^ 2)
      < Real.sqrt (m1 ^ 2 + b ^ 2) + Real.sqrt (m2 ^ 2 + b ^ 2) := by
    intro a b ha hab
    have h2 : a ^ 2 < b ^ 2 := by nlinarith
    exact add_lt_add (Real.sqrt_lt_sqrt (by positivity) (by linarith))
      (Real.sqrt_lt_sqrt (by positivity) (by linarith))
  rcases lt_trichotomy q q' with hl | hl | hl
  · have := key q q' h0 hl; linarith
  · exact hl
  · have := key q' q h0' hl; linarith

/-- **C55**: the breakup momentum that is returned is the one momentum with which the decay is possible -/
theorem breakupMomentum_iff {M m1 m2 q : ℝ} (hM : 0 < M) (h1 : 0 ≤ m1) (h2 : 0 ≤ m2) :
    breakupMomentum M m1 m2 = some q ↔ Decays M m1 m2 q := by
  have aux : ∀ q, Decays M m1 m2 q → m1 + m2 ≤ M := by
    rintro q ⟨hq, e⟩
    rw [← e]
    exact add_le_add (Real.le_sqrt_of_sq_le (by nlinarith [sq_nonneg q]))
      (Real.le_sqrt_of_sq_le (by nlinarith [sq_nonneg q]))
  have sp : m1 + m2 ≤ M → ∃ q, breakupMomentum M m1 m2 = some q ∧ Decays M m1 m2 q := by
    intro h
    obtain ⟨q, e, h0, _, _, _, hs⟩ := Gen.breakup_spec hM h1 h2 h
    refine ⟨q, e, h0, ?_⟩
    rw [← hs]
    congr 2 <;> ring
  constructor
  · intro e
    have h : m1 + m2 ≤ M := by
      by_contra hc
      unfold breakupMomentum breakupMomentumSquared at e
      dsimp only at e
      rw [if_pos ⟨rfl, not_le.mp hc⟩] at e
      cases e
    obtain ⟨q', e', d⟩ := sp h
    rw [e] at e'
    cases e'
    exact d
  · intro d
    obtain ⟨q', e', d'⟩ := sp (aux q d)
    rw [e', decays_unique d' d]

/-- **C55**: it aborts only for masses for which no decay is possible -/
theorem breakupMomentum_none {M m1 m2 : ℝ} (hM : 0 < M) (h1 : 0 ≤ m1) (h2 : 0 ≤ m2) :
    breakupMomentum M m1 m2 = none ↔ ¬ ∃ q, Decays M m1 m2 q := by
  constructor
  · rintro e ⟨q, d⟩
    rw [(breakupMomentum_iff hM h1 h2).mpr d] at e
    cases e
  · intro h
    cases e : breakupMomentum M m1 m2 with
    | none => rfl
    | some q => exact absurd ⟨q, (breakupMomentum_iff hM h1 h2).mp e⟩ h

/-- **C55**: it never aborts for the mother and the daughters of an event -/
theorem breakupMomentum_event {p1 p2 : Gen.LV} {m1 m2 : ℝ} (h1 : 0 ≤ m1) (h2 : 0 ≤ m2)
    (hp1 : Particle m1 p1) (hp2 : Particle m2 p2) :
    ∃ q, breakupMomentum (Real.sqrt (p1 + p2).m2) m1 m2 = some q ∧ 0 ≤ q := by
  apply Gen.breakup_isSome
  have := Gen.mass_add (p := p1) (q := p2) (by rw [hp1.mass]; positivity) (by rw [hp2.mass]; positivity)
    hp1.energy hp2.energy
  rwa [hp1.mass, hp2.mass, Real.sqrt_sq h1, Real.sqrt_sq h2] at this

/-- **C55**: the complex breakup momentum is the continuation of the same square: its square is that of
the breakup momentum, it is real above threshold, imaginary with positive imaginary part between
`|m1 - m2|` and threshold -/
theorem breakupMomentumComplex_spec {M m1 m2 : ℝ} (hM : 0 < M) (h1 : 0 ≤ m1) (h2 : 0 ≤ m2) :
    ∃ q : ℂ, breakupMomentumComplex M m1 m2 = some q ∧
      q ^ 2 = (((M ^ 2 - (m1 + m2) ^ 2) * (M ^ 2 - (m1 - m2) ^ 2) / (4 * M ^ 2) : ℝ) : ℂ) ∧
      (m1 + m2 ≤ M → q.im = 0 ∧ Decays M m1 m2 q.re) ∧
      (|m1 - m2| < M → M < m1 + m2 → q.re = 0 ∧ 0 < q.im) := by
  have e4 : ∀ q : ℂ, q ^ 2 = ⟨q.re * q.re - q.im * q.im, 2 * (q.re * q.im)⟩ := by
    intro q
    apply Complex.ext
    · rw [sq, Complex.mul_re]
    · rw [sq, Complex.mul_im]; ring
  have hf : (M - (m1 + m2)) * (M + (m1 + m2)) * (M - (m1 - m2)) * (M + (m1 - m2)) / (4 * M * M)
      = (M ^ 2 - (m1 + m2) ^ 2) * (M ^ 2 - (m1 - m2) ^ 2) / (4 * M ^ 2) := by
    congr 1 <;> ring
  unfold breakupMomentumComplex breakupMomentumSquared
  dsimp only
  rw [if_neg (by simp), if_neg (by simp), hf, Option.map_some]
  refine ⟨_, rfl, ?_, ?_, ?_⟩ <;> beta_reduce
  · split
    · rename_i hn
      rw [e4]
      apply Complex.ext
      · dsimp only
        rw [Complex.ofReal_re, Real.mul_self_sqrt (abs_nonneg _), abs_of_neg hn]; ring
      · dsimp only
        rw [Complex.ofReal_im]; ring
    · rename_i hn
      rw [e4]
      apply Complex.ext
      · dsimp only
        rw [Complex.ofReal_re, Real.mul_self_sqrt (abs_nonneg _), abs_of_nonneg (not_lt.mp hn)]; ring
      · dsimp only
        rw [Complex.ofReal_im]; ring
  · intro h
    have hn : 0 ≤ (M ^ 2 - (m1 + m2) ^ 2) * (M ^ 2 - (m1 - m2) ^ 2) / (4 * M ^ 2) := by
      refine div_nonneg (mul_nonneg ?_ ?_) (by positivity) <;> nlinarith
    rw [if_neg (not_lt.mpr hn)]
    refine ⟨rfl, ?_⟩
    dsimp only
    rw [abs_of_nonneg hn]
    obtain ⟨q, e, h0⟩ := Gen.breakup_isSome h
    have d := (breakupMomentum_iff hM h1 h2).mp e
    unfold breakupMomentum breakupMomentumSquared at e
    dsimp only at e
    rw [if_neg (fun hc => absurd hc.2 (not_lt.mpr h)), hf,
      if_neg (fun hc => absurd hc.2 (not_lt.mpr hn))] at e
    cases e
    exact d
  · intro ha hb
    have hd : (m1 - m2) ^ 2 < M ^ 2 := by
      rw [← sq_abs]
      nlinarith [abs_nonneg (m1 - m2)]
    have hn : (M ^ 2 - (m1 + m2) ^ 2) * (M ^ 2 - (m1 - m2) ^ 2) / (4 * M ^ 2) < 0 := by
      refine div_neg_of_neg_of_pos (mul_neg_of_neg_of_pos ?_ ?_) (by positivity) <;> nlinarith
    rw [if_pos hn]
    exact ⟨rfl, Real.sqrt_pos.mpr (abs_pos.mpr hn.ne)⟩

/-- at least one case: a mother of mass 5 decays into masses 3 and 0 with momentum 8/5 -/
example : breakupMomentum 5 3 0 = some (8 / 5) := by
  rw [breakupMomentum_iff (by norm_num) (by norm_num) (by norm_num)]
  refine ⟨by norm_num, ?_⟩
  rw [show (3 : ℝ) ^ 2 + (8 / 5) ^ 2 = (17 / 5) ^ 2 by norm_num,
    show (0 : ℝ) ^ 2 + (8 / 5) ^ 2 = (8 / 5) ^ 2 by norm_num,
    Real.sqrt_sq (by norm_num), Real.sqrt_sq (by norm_num)]
  norm_num

/-! ## barrier factors -/

/-- real and imaginary part of the polynomials on the imaginary axis obey the same recursion -/
noncomputable def thetaRec (a b x : ℝ) : ℕ → ℝ
  | 0 => a
  | 1 => b
  | n + 2 => (2 * n + 3) * thetaRec a b x (n + 1) - x ^ 2 * thetaRec a b x n

theorem theta_imag (x : ℝ) (n : ℕ) :
    theta n (-Complex.I * x) = ⟨thetaRec 1 1 x n, thetaRec 0 (-x) x n⟩ := by
  induction n using Nat.strong_induction_on with
  | _ n ih =>
    match n, ih with
    | 0, _ => apply Complex.ext <;> simp [theta, thetaRec]
    | 1, _ => apply Complex.ext <;> simp [theta, thetaRec]
    | n + 2, ih =>
      have e : (-Complex.I * (x : ℂ)) ^ 2 = ((-x ^ 2 : ℝ) : ℂ) := by
        rw [mul_pow, neg_sq, Complex.I_sq]; push_cast; ring
      have e2 : (2 * (n : ℂ) + 3) = ((2 * n + 3 : ℝ) : ℂ) := by push_cast; ring
      rw [theta, ih _ (by omega), ih _ (by omega), e, e2]
      apply Complex.ext
      · simp only [Complex.add_re, Complex.re_ofReal_mul, thetaRec]; ring
      · simp only [Complex.add_im, Complex.im_ofReal_mul, thetaRec]; ring

theorem normSq_theta (x : ℝ) (n : ℕ) : Complex.normSq (theta n (-Complex.I * x))
    = thetaRec 1 1 x n ^ 2 + thetaRec 0 (-x) x n ^ 2 := by
  rw [theta_imag, Complex.normSq_mk]; ring

theorem frac_aux {y D c num den : ℝ} (h1 : num = c * y) (h2 : den = D) : num / den = y / D / (1 / c) := by
  rw [h1, h2, div_div_eq_mul_div, div_one, div_mul_eq_mul_div, mul_comm]

/-- **C55**: squared barrier factors are penetrabilities, normalised to 1 at the momentum scale -/
theorem barrierFactorSquared_spec {n : ℕ} (hn : n ≤ 7) {q Pr : ℝ} (hP : 0 < Pr) :
    barrierFactorSquared (2 * n) q Pr = penetrability n (q / Pr) / penetrability n 1 := by
  unfold barrierFactorSquared penetrability
  rw [normSq_theta, normSq_theta]
  have hz : q * q / (Pr * Pr) = (q / Pr) ^ 2 := by rw [div_pow]; ring
  rw [hz]
  generalize q / Pr = x
  interval_cases n <;> unfold barrierFactorSquaredZ <;> norm_num [thetaRec]
  all_goals exact frac_aux (by ring) (by ring)

/-- **C55**: they vanish for all other orbital angular momenta (in units of 1/2), also for those that are
possible -/
theorem barrierFactorSquared_other {L : ℤ} (h : ¬ ∃ n : ℕ, n ≤ 7 ∧ L = 2 * n) (q Pr : ℝ) :
    barrierFactorSquared L q Pr = 0 := by
  have aux : ∀ n : ℕ, n ≤ 7 → L ≠ 2 * n := fun n hn e => h ⟨n, hn, e⟩
  unfold barrierFactorSquared barrierFactorSquaredZ
  rw [if_neg (by simpa using aux 0 (by omega)), if_neg (by simpa using aux 1 (by omega)),
    if_neg (by simpa using aux 2 (by omega)), if_neg (by simpa using aux 3 (by omega)),
    if_neg (by simpa using aux 4 (by omega)), if_neg (by simpa using aux 5 (by omega)),
    if_neg (by simpa using aux 6 (by omega)), if_neg (by simpa using aux 7 (by omega))]

/-- ratios of a power and a polynomial of the same degree with nonnegative coefficients increase -/
theorem ratio_mono {n : ℕ} {c : ℝ} {d : ℕ → ℝ} (hc : 0 < c) (hn : 1 ≤ n) (h0 : 0 < d 0)
    (hd : ∀ k, 0 ≤ d k) {z w : ℝ} (hz : 0 ≤ z) (hzw : z < w) :
    c * z ^ n / ∑ k ∈ Finset.range (n + 1), d k * z ^ k
      < c * w ^ n / ∑ k ∈ Finset.range (n + 1), d k * w ^ k := by
  have hw : 0 ≤ w := hz.trans hzw.le
  have pos : ∀ y, 0 ≤ y → 0 < ∑ k ∈ Finset.range (n + 1), d k * y ^ k := by
    intro y hy
    refine Finset.sum_pos' (fun k _ => mul_nonneg (hd k) (pow_nonneg hy k)) ⟨0, by simp, by simpa⟩
  rw [div_lt_div_iff₀ (pos z hz) (pos w hw), mul_assoc, mul_assoc]
  refine mul_lt_mul_of_pos_left ?_ hc
  rw [Finset.mul_sum, Finset.mul_sum]
  refine Finset.sum_lt_sum (fun k hk => ?_) ⟨0, by simp, ?_⟩
  · obtain ⟨j, rfl⟩ := Nat.exists_eq_add_of_le (Nat.lt_succ_iff.mp (Finset.mem_range.mp hk))
    have hj : z ^ j ≤ w ^ j := pow_le_pow_left₀ hz hzw.le j
    have hm : 0 ≤ d k * (z ^ k * w ^ k) := mul_nonneg (hd k) (mul_nonneg (pow_nonneg hz k) (pow_nonneg hw k))
    have := mul_le_mul_of_nonneg_left hj hm
    rw [pow_add, pow_add]
    linarith
  · have : z ^ n < w ^ n := pow_lt_pow_left₀ hzw hz (by omega)
    simp only [pow_zero, mul_one]
    exact mul_lt_mul_of_pos_right this h0

/-- coefficients of the denominators, lowest power first -/
def coeffs : ℕ → List ℕ
  | 1 => [1, 1]
  | 2 => [9, 3, 1]
  | 3 => [225, 45, 6, 1]
  | 4 => [11025, 1575, 135, 10, 1]
  | 5 => [893025, 99225, 6300, 315, 15, 1]
  | 6 => [108056025, 9823275, 496125, 18900, 630, 21, 1]
  | 7 => [18261468225, 1404728325, 58939650, 1819125, 47250, 1134, 28, 1]
  | _ => []

theorem barrier_ratio {n : ℕ} (h1 : 1 ≤ n) (h7 : n ≤ 7) (z : ℝ) : barrierFactorSquaredZ (2 * n) z
    = ((coeffs n).sum : ℝ) * z ^ n / ∑ k ∈ Finset.range (n + 1), (((coeffs n).getD k 0 : ℕ) : ℝ) * z ^ k := by
  interval_cases n <;> unfold barrierFactorSquaredZ <;>
    norm_num [coeffs, Finset.sum_range_succ]
  all_goals
    congr 1 <;> ring

/-- **C55**: for orbital angular momenta 1 to 7 the squared barrier factor grows strictly with momentum,
starting from 0 -/
theorem barrierFactorSquared_mono {n : ℕ} (h1 : 1 ≤ n) (h7 : n ≤ 7) {q q' Pr : ℝ} (hP : 0 < Pr)
    (hq : 0 ≤ q) (h : q < q') :
    0 ≤ barrierFactorSquared (2 * n) q Pr ∧
    barrierFactorSquared (2 * n) q Pr < barrierFactorSquared (2 * n) q' Pr ∧
    barrierFactorSquared (2 * n) 0 Pr = 0 := by
  unfold barrierFactorSquared
  have hs : (0 : ℝ) < ((coeffs n).sum : ℝ) := by interval_cases n <;> norm_num [coeffs]
  have h0 : (0 : ℝ) < (((coeffs n).getD 0 0 : ℕ) : ℝ) := by interval_cases n <;> norm_num [coeffs]
  refine ⟨?_, ?_, ?_⟩
  · rw [barrier_ratio h1 h7]
    refine div_nonneg (mul_nonneg hs.le (pow_nonneg (by positivity) n)) ?_
    exact Finset.sum_nonneg fun k _ => mul_nonneg (Nat.cast_nonneg _) (pow_nonneg (by positivity) k)
  · rw [barrier_ratio h1 h7, barrier_ratio h1 h7]
    refine ratio_mono hs h1 h0 (fun k => Nat.cast_nonneg _) (by positivity) ?_
    exact div_lt_div_of_pos_right (by nlinarith) (by positivity)
  · rw [barrier_ratio h1 h7]
    simp only [mul_zero, zero_div]
    rw [zero_pow (by omega), mul_zero, zero_div]

/-! ## reflectivity -/

/-- **C55**: the reflectivity factor of legal quantum numbers is a sign, opposite for the two
reflectivities; it is 0 for illegal ones -/
theorem reflectivityFactor_spec (J P M refl : ℤ) :
    ((P = 1 ∨ P = -1) ∧ 0 ≤ M ∧ (refl = 1 ∨ refl = -1) →
      (reflectivityFactor J P M refl = 1 ∨ reflectivityFactor J P M refl = -1) ∧
      reflectivityFactor J P M (-refl) = -reflectivityFactor J P M refl) ∧
    (¬ ((P = 1 ∨ P = -1) ∧ 0 ≤ M ∧ (refl = 1 ∨ refl = -1)) → reflectivityFactor J P M refl = 0) := by
  unfold reflectivityFactor
  constructor
  · rintro ⟨hP, hM, hr⟩
    have a : ¬ P.natAbs ≠ 1 := by omega
    have b : ¬ M < 0 := by omega
    have c : ¬ refl.natAbs ≠ 1 := by omega
    have c' : ¬ (-refl).natAbs ≠ 1 := by omega
    simp only [if_neg a, if_neg b, if_neg c, if_neg c']
    split <;> rcases hP with rfl | rfl <;> rcases hr with rfl | rfl <;> simp
  · intro h
    split
    · rfl
    · split
      · rfl
      · split
        · rfl
        · exact absurd ⟨by omega, by omega, by omega⟩ h

/-! ## borders of Dalitz plots -/

/-- the product of two momenta of real particles is not negative -/
theorem mdot_nonneg' {p q : Gen.LV} (hp : 0 ≤ p.m2) (hq : 0 ≤ q.m2) (hpt : 0 ≤ p.t) (hqt : 0 ≤ q.t) :
    0 ≤ Gen.mdot p q := by
  unfold Gen.LV.m2 at hp hq
  unfold Gen.mdot
  have h : (p.x * q.x + p.y * q.y + p.z * q.z) ^ 2 ≤ (p.t * q.t) ^ 2 := by
    have h1 : (p.x * q.x + p.y * q.y + p.z * q.z) ^ 2
        ≤ (p.x * p.x + p.y * p.y + p.z * p.z) * (q.x * q.x + q.y * q.y + q.z * q.z) := by
      nlinarith [sq_nonneg (p.x * q.y - p.y * q.x), sq_nonneg (p.x * q.z - p.z * q.x),
        sq_nonneg (p.y * q.z - p.z * q.y)]
    refine h1.trans ?_
    rw [mul_pow]
    refine mul_le_mul (by linarith [sq p.t]) (by linarith [sq q.t]) ?_ (by positivity)
    nlinarith [mul_self_nonneg q.x, mul_self_nonneg q.y, mul_self_nonneg q.z]
  have := (abs_le_of_sq_le_sq' h (mul_nonneg hpt hqt)).2
  linarith

/-- masses of pairs for which there are decays -/
theorem threeBody_range {M s01 s12 : ℝ} {m : Fin 3 → ℝ} (hM : 0 ≤ M) (hm : ∀ i, 0 ≤ m i)
    (h : ThreeBody M m s01 s12) : (m 0 + m 1) ^ 2 ≤ s01 ∧ Real.sqrt s01 + m 2 ≤ M := by
  obtain ⟨p, hp, hT, h01, _⟩ := h
  have hpm : ∀ i, 0 ≤ (p i).m2 := fun i => by rw [(hp i).mass]; positivity
  have hs : ∀ i, Real.sqrt (p i).m2 = m i := fun i => by rw [(hp i).mass, Real.sqrt_sq (hm i)]
  have a := Gen.mass_add (hpm 0) (hpm 1) (hp 0).energy (hp 1).energy
  rw [hs, hs, h01] at a
  have h0 : 0 ≤ s01 := by
    have := Gen.m2_add (p 0) (p 1)
    by_contra hc
    rw [Real.sqrt_eq_zero_of_nonpos (not_le.mp hc).le] at a
    have h0 : m 0 = 0 := le_antisymm (by linarith [hm 1]) (hm 0)
    have h1 : m 1 = 0 := le_antisymm (by linarith [hm 0]) (hm 1)
    have := mdot_nonneg' (hpm 0) (hpm 1) (hp 0).energy (hp 1).energy
    linarith [hpm 0, hpm 1, not_le.mp hc]
  have b := Gen.mass_add (p := p 0 + p 1) (q := p 2) (by rw [h01]; exact h0) (hpm 2)
    (add_nonneg (hp 0).energy (hp 1).energy) (hp 2).energy
  rw [h01, hs, hT, Real.sqrt_sq hM] at b
  refine ⟨?_, b⟩
  have := pow_le_pow_left₀ (add_nonneg (hm 0) (hm 1)) a 2
  rwa [Real.sq_sqrt h0] at this

/-- energies and momenta in the rest frame of particles 0 and 1 -/
theorem border_eq {M s01 mu : ℝ} {m : Fin 3 → ℝ} (hm : ∀ i, 0 ≤ m i) (hmu : 0 < mu) (hs : s01 = mu ^ 2)
    (h1 : m 0 + m 1 ≤ mu) (h2 : mu + m 2 ≤ M) :
    ∃ E1 E2 p1 p2 : ℝ, 0 ≤ E1 ∧ E1 ≤ mu ∧ 0 ≤ E2 ∧ 0 ≤ p1 ∧ 0 ≤ p2 ∧
      2 * mu * E1 = mu ^ 2 - m 0 ^ 2 + m 1 ^ 2 ∧ 2 * mu * E2 = M ^ 2 - mu ^ 2 - m 2 ^ 2 ∧
      p1 ^ 2 = E1 ^ 2 - m 1 ^ 2 ∧ p2 ^ 2 = E2 ^ 2 - m 2 ^ 2 ∧
      dalitzKinematicBorder s01 M m true = some ((E1 + E2) ^ 2 - (p1 + p2) ^ 2) ∧
      dalitzKinematicBorder s01 M m false = some ((E1 + E2) ^ 2 - (p1 - p2) ^ 2) := by
  have hm0 := hm 0
  have hm1 := hm 1
  have hm2 := hm 2
  have hsq : Real.sqrt s01 = mu := by rw [hs, Real.sqrt_sq hmu.le]
  have e1 : ((s01 - m 0 * m 0 + m 1 * m 1) / (2 * mu)) * (2 * mu) = mu ^ 2 - m 0 ^ 2 + m 1 ^ 2 := by
    rw [div_mul_cancel₀ _ (by positivity), hs]; ring
  have e2 : ((M * M - s01 - m 2 * m 2) / (2 * mu)) * (2 * mu) = M ^ 2 - mu ^ 2 - m 2 ^ 2 := by
    rw [div_mul_cancel₀ _ (by positivity), hs]; ring
  have key : ∀ E1 E2 : ℝ, E1 * (2 * mu) = mu ^ 2 - m 0 ^ 2 + m 1 ^ 2 →
      E2 * (2 * mu) = M ^ 2 - mu ^ 2 - m 2 ^ 2 →
      0 ≤ E1 ∧ E1 ≤ mu ∧ 0 ≤ E2 ∧ m 1 * m 1 ≤ E1 * E1 ∧ m 2 * m 2 ≤ E2 * E2 := by
    intro E1 E2 g1 g2
    have a1 : m 1 ≤ E1 := by
      by_contra hc
      nlinarith [not_le.mp hc, mul_nonneg (sub_nonneg.mpr h1) (show 0 ≤ mu - m 1 + m 0 by linarith)]
    have a2 : m 2 ≤ E2 := by
      by_contra hc
      nlinarith [not_le.mp hc, mul_nonneg (sub_nonneg.mpr h2) (show 0 ≤ M + mu + m 2 by linarith)]
    refine ⟨by linarith, ?_, by linarith, mul_self_le_mul_self hm1 a1, mul_self_le_mul_self hm2 a2⟩
    by_contra hc
    nlinarith [not_le.mp hc]
  obtain ⟨k1, k2, k3, k4, k5⟩ := key _ _ e1 e2
  unfold dalitzKinematicBorder
  dsimp only
  rw [hsq, if_neg (by rw [hs]; exact not_lt.mpr (by positivity)), if_neg hmu.ne',
    if_neg (not_or.mpr ⟨not_lt.mpr k4, not_lt.mpr k5⟩),
    if_pos rfl, if_neg (by rw [hs]; exact not_lt.mpr (by positivity)), if_neg hmu.ne',
    if_neg (not_or.mpr ⟨not_lt.mpr k4, not_lt.mpr k5⟩), if_neg (by simp)]
  generalize (s01 - m 0 * m 0 + m 1 * m 1) / (2 * mu) = E1 at *
  generalize (M * M - s01 - m 2 * m 2) / (2 * mu) = E2 at *
  refine ⟨E1, E2, Real.sqrt (E1 * E1 - m 1 * m 1), Real.sqrt (E2 * E2 - m 2 * m 2), k1, k2, k3,
    Real.sqrt_nonneg _, Real.sqrt_nonneg _, by linarith, by linarith, ?_, ?_, ?_, ?_⟩
  · rw [Real.sq_sqrt (by linarith)]; ring
  · rw [Real.sq_sqrt (by linarith)]; ring
  · rw [sq, sq]
  · rw [sq, sq]

/-- **C55**: the two borders are exactly the limits of the squared mass of particles 1 and 2 in decays in
which the squared mass of particles 0 and 1 is the given one -/
theorem dalitzKinematicBorder_spec {M s01 : ℝ} {m : Fin 3 → ℝ} (hm : ∀ i, 0 ≤ m i) (hs : 0 < s01)
    (h1 : (m 0 + m 1) ^ 2 ≤ s01) (h2 : Real.sqrt s01 + m 2 ≤ M) :
    ∃ lo hi, dalitzKinematicBorder s01 M m true = some lo ∧
      dalitzKinematicBorder s01 M m false = some hi ∧ lo ≤ hi ∧
      ∀ s12, ThreeBody M m s01 s12 ↔ lo ≤ s12 ∧ s12 ≤ hi := by
  obtain ⟨mu, hmu⟩ : ∃ mu, mu = Real.sqrt s01 := ⟨_, rfl⟩
  have hmu0 : 0 < mu := by rw [hmu]; exact Real.sqrt_pos.mpr hs
  have hsm : s01 = mu ^ 2 := by rw [hmu, Real.sq_sqrt hs.le]
  rw [← hmu] at h2
  have h1' : m 0 + m 1 ≤ mu := by
    rw [hsm] at h1
    exact (abs_le_of_sq_le_sq' h1 hmu0.le).2
  obtain ⟨E1, E2, p1, p2, hE1, hE1', hE2, hp1, hp2, e1, e2, q1, q2, hlo, hhi⟩ := border_eq hm hmu0 hsm h1' h2
  have f1 : (E1 + E2) ^ 2 - (p1 + p2) ^ 2 = m 1 ^ 2 + m 2 ^ 2 + 2 * (E1 * E2) - 2 * (p1 * p2) := by
    linear_combination -q1 - q2
  have f2 : (E1 + E2) ^ 2 - (p1 - p2) ^ 2 = m 1 ^ 2 + m 2 ^ 2 + 2 * (E1 * E2) + 2 * (p1 * p2) := by
    linear_combination -q1 - q2
  refine ⟨_, _, hlo, hhi, by rw [f1, f2]; linarith only [mul_nonneg hp1 hp2], fun s12 => ⟨?_, ?_⟩⟩
  · rintro ⟨p, hp, hT, h01, h12⟩
    have hPt : 0 < (p 0 + p 1).t := by
      refine Gen.energy_pos (by rw [h01]; exact hs) (add_nonneg (hp 0).energy (hp 1).energy)
    have hPm : (p 0 + p 1).m2 = mu ^ 2 := by rw [h01, hsm]
    have hb : Gen.b2 (p 0 + p 1).boostVector.neg < 1 := by
      rw [Gen.b2_neg]; exact (Gen.b2_boostVector (by rw [h01]; exact hs)).1
    have r1 := Gen.rest_energy hmu0 hPm hPt (p 1)
    have r2 := Gen.rest_energy hmu0 hPm hPt (p 2)
    have b1 : ((p 1).boost (p 0 + p 1).boostVector.neg).m2 = m 1 ^ 2 := by rw [Gen.m2_boost hb, (hp 1).mass]
    have b2 : ((p 2).boost (p 0 + p 1).boostVector.neg).m2 = m 2 ^ 2 := by rw [Gen.m2_boost hb, (hp 2).mass]
    have b12 := Gen.mdot_boost hb (p 1) (p 2)
    generalize (p 1).boost (p 0 + p 1).boostVector.neg = a at *
    generalize (p 2).boost (p 0 + p 1).boostVector.neg = b at *
    have g01 : s01 = m 0 ^ 2 + m 1 ^ 2 + 2 * Gen.mdot (p 0) (p 1) := by
      rw [← h01, Gen.m2_add, (hp 0).mass, (hp 1).mass]
    have gT : M ^ 2 = s01 + m 2 ^ 2 + 2 * Gen.mdot (p 2) (p 0 + p 1) := by
      rw [← hT, Gen.m2_add, h01, (hp 2).mass, Gen.mdot_comm]
    have g12 : s12 = m 1 ^ 2 + m 2 ^ 2 + 2 * Gen.mdot (p 1) (p 2) := by
      rw [← h12, Gen.m2_add, (hp 1).mass, (hp 2).mass]
    have gm : Gen.mdot (p 1) (p 0 + p 1) = Gen.mdot (p 0) (p 1) + m 1 ^ 2 := by
      rw [← (hp 1).mass]; unfold Gen.mdot Gen.LV.m2; simp only [Gen.add_x, Gen.add_y, Gen.add_z, Gen.add_t]; ring
    have ta : a.t = E1 := by
      apply mul_left_cancel₀ hmu0.ne'
      rw [r1, gm]; linarith
    have tb : b.t = E2 := by
      apply mul_left_cancel₀ hmu0.ne'
      rw [r2]; linarith
    have sa : a.x * a.x + a.y * a.y + a.z * a.z = p1 ^ 2 := by
      unfold Gen.LV.m2 at b1; rw [ta] at b1; linarith [sq E1]
    have sb : b.x * b.x + b.y * b.y + b.z * b.z = p2 ^ 2 := by
      unfold Gen.LV.m2 at b2; rw [tb] at b2; linarith [sq E2]
    have hd : Gen.mdot (p 1) (p 2) = E1 * E2 - (a.x * b.x + a.y * b.y + a.z * b.z) := by
      rw [← b12]; unfold Gen.mdot; rw [ta, tb]
    have hcs : (a.x * b.x + a.y * b.y + a.z * b.z) ^ 2 ≤ (p1 * p2) ^ 2 := by
      rw [mul_pow, ← sa, ← sb]
      have n1 := sq_nonneg (a.x * b.y - a.y * b.x)
      have n2 := sq_nonneg (a.x * b.z - a.z * b.x)
      have n3 := sq_nonneg (a.y * b.z - a.z * b.y)
      have : (a.x * a.x + a.y * a.y + a.z * a.z) * (b.x * b.x + b.y * b.y + b.z * b.z)
          = (a.x * b.x + a.y * b.y + a.z * b.z) ^ 2 + (a.x * b.y - a.y * b.x) ^ 2
            + (a.x * b.z - a.z * b.x) ^ 2 + (a.y * b.z - a.z * b.y) ^ 2 := by ring
      rw [this]
      linarith only [n1, n2, n3]
    obtain ⟨c1, c2⟩ := abs_le_of_sq_le_sq' hcs (mul_nonneg hp1 hp2)
    constructor <;> linarith
  · rintro ⟨hl, hh⟩
    -- cosine of the angle between particles 1 and 2
    obtain ⟨c, hc, hcc⟩ : ∃ c : ℝ, c ^ 2 ≤ 1 ∧ 2 * (p1 * p2) * c = m 1 ^ 2 + m 2 ^ 2 + 2 * (E1 * E2) - s12 := by
      by_cases h0 : p1 * p2 = 0
      · refine ⟨0, by norm_num, ?_⟩
        rw [h0] at f1 f2 ⊢
        linarith
      · have hp : 0 < p1 * p2 := lt_of_le_of_ne (mul_nonneg hp1 hp2) (Ne.symm h0)
        refine ⟨(m 1 ^ 2 + m 2 ^ 2 + 2 * (E1 * E2) - s12) / (2 * (p1 * p2)), ?_, mul_div_cancel₀ _ (by positivity)⟩
        rw [div_pow, div_le_one (by positivity)]
        refine sq_le_sq' ?_ ?_ <;> linarith
    have hc' := Real.sq_sqrt (show 0 ≤ 1 - c ^ 2 by linarith)
    generalize Real.sqrt (1 - c ^ 2) = sn at hc'
    refine ⟨![⟨-p1, 0, 0, mu - E1⟩, ⟨p1, 0, 0, E1⟩, ⟨p2 * c, p2 * sn, 0, E2⟩], ?_, ?_, ?_, ?_⟩
    · intro i
      fin_cases i
      · exact ⟨by show (mu - E1) * (mu - E1) - (-p1 * -p1 + 0 * 0 + 0 * 0) = m 0 ^ 2; linear_combination -q1 - e1,
          sub_nonneg.mpr hE1'⟩
      · exact ⟨by show E1 * E1 - (p1 * p1 + 0 * 0 + 0 * 0) = m 1 ^ 2; linear_combination -q1, hE1⟩
      · refine ⟨?_, hE2⟩
        show E2 * E2 - (p2 * c * (p2 * c) + p2 * sn * (p2 * sn) + 0 * 0) = m 2 ^ 2
        linear_combination (-p2 ^ 2) * hc' - q2
    · show (mu - E1 + E1 + E2) * (mu - E1 + E1 + E2) - ((-p1 + p1 + p2 * c) * (-p1 + p1 + p2 * c)
        + (0 + 0 + p2 * sn) * (0 + 0 + p2 * sn) + (0 + 0 + 0) * (0 + 0 + 0)) = M ^ 2
      linear_combination (-p2 ^ 2) * hc' - q2 + e2
    · show (mu - E1 + E1) * (mu - E1 + E1) - ((-p1 + p1) * (-p1 + p1)
        + (0 + 0) * (0 + 0) + (0 + 0) * (0 + 0)) = s01
      rw [hsm]; ring
    · show (E1 + E2) * (E1 + E2) - ((p1 + p2 * c) * (p1 + p2 * c)
        + (0 + p2 * sn) * (0 + p2 * sn) + (0 + 0) * (0 + 0)) = s12
      linear_combination (-p2 ^ 2) * hc' - q2 - q1 - hcc

/-- a decay of mass 5 into masses 1, 1, 1 in which particles 0 and 1 have squared mass 4: the other two
have squared mass 12, both borders coincide -/
example : dalitzKinematicBorder 4 5 (fun _ => 1) true = some 12 ∧
    ThreeBody 5 (fun _ => 1) 4 12 := by
  have h4 : Real.sqrt 4 = 2 := by rw [show (4 : ℝ) = 2 ^ 2 by norm_num, Real.sqrt_sq (by norm_num)]
  obtain ⟨lo, hi, h1, h2, hl, h3⟩ := dalitzKinematicBorder_spec (M := 5) (s01 := 4) (m := fun _ => 1)
    (by intro i; norm_num) (by norm_num) (by norm_num) (by rw [h4]; norm_num)
  have e : dalitzKinematicBorder 4 5 (fun _ => 1) true = some 12 := by
    unfold dalitzKinematicBorder
    norm_num [h4]
  have := h1.symm.trans e
  cases this
  have : (12 : ℝ) ≤ 12 ∧ (12 : ℝ) ≤ hi := ⟨le_refl _, hl⟩
  exact ⟨e, (h3 12).mpr this⟩

/-- **C55**: beyond the largest possible mass of particles 0 and 1 the borders are not 0, as they are
between the ranges of scattering and decay, although no decay is possible there -/
theorem dalitzKinematicBorder_beyond : (¬ ∃ s12, ThreeBody 5 (fun _ => 1) 36 s12) ∧
    dalitzKinematicBorder 36 5 (fun _ => 1) true = some (-4) ∧
    dalitzKinematicBorder 25 5 (fun _ => 1) true = some 0 := by
  have h6 : Real.sqrt 36 = 6 := by rw [show (36 : ℝ) = 6 ^ 2 by norm_num, Real.sqrt_sq (by norm_num)]
  have h5 : Real.sqrt 25 = 5 := by rw [show (25 : ℝ) = 5 ^ 2 by norm_num, Real.sqrt_sq (by norm_num)]
  refine ⟨?_, ?_, ?_⟩
  · rintro ⟨s12, h⟩
    have := (threeBody_range (by norm_num) (by intro i; norm_num) h).2
    rw [h6] at this
    norm_num at this
  · unfold dalitzKinematicBorder
    norm_num [h6]
  · unfold dalitzKinematicBorder
    norm_num [h5]

end Rpwa.Phys

import Verif.Model.PhaseSpace
import Verif.Spec.PhaseSpace
import Verif.Lemmas.Kinematics
import Mathlib.Tactic.FieldSimp

/-!
# C51: kinematics of n-body phase space
-/

namespace Rpwa.Gen

open Spec

/-! ## breakup momentum -/

/-- breakup momentum above threshold: the energies of the two daughters sum up to the mother mass -/
theorem breakup_spec {M m1 m2 : ℝ} (hM : 0 < M) (h1 : 0 ≤ m1) (h2 : 0 ≤ m2) (h : m1 + m2 ≤ M) :
    ∃ q, Phys.breakupMomentum M m1 m2 = some q ∧ 0 ≤ q ∧
      q ^ 2 = ((M ^ 2 + m1 ^ 2 - m2 ^ 2) / (2 * M)) ^ 2 - m1 ^ 2 ∧
      Real.sqrt (m1 * m1 + q * q) = (M ^ 2 + m1 ^ 2 - m2 ^ 2) / (2 * M) ∧
      Real.sqrt (m2 * m2 + q * q) = (M ^ 2 + m2 ^ 2 - m1 ^ 2) / (2 * M) ∧
      Real.sqrt (m1 * m1 + q * q) + Real.sqrt (m2 * m2 + q * q) = M := by
  have hq2 : 0 ≤ (M - (m1 + m2)) * (M + (m1 + m2)) * (M - (m1 - m2)) * (M + (m1 - m2)) / (4 * M * M) := by
    refine div_nonneg ?_ (by positivity)
    exact mul_nonneg (mul_nonneg (mul_nonneg (by linarith) (by linarith)) (by linarith)) (by linarith)
  refine ⟨Real.sqrt ((M - (m1 + m2)) * (M + (m1 + m2)) * (M - (m1 - m2)) * (M + (m1 - m2)) / (4 * M * M)),
    ?_, Real.sqrt_nonneg _, ?_⟩
  · unfold Phys.breakupMomentum Phys.breakupMomentumSquared
    dsimp only
    rw [if_neg (fun hc => absurd hc.2 (not_lt.mpr h)), if_neg (fun hc => absurd hc.2 (not_lt.mpr hq2))]
    rfl
  · have hsq := Real.sq_sqrt hq2
    generalize Real.sqrt ((M - (m1 + m2)) * (M + (m1 + m2)) * (M - (m1 - m2)) * (M + (m1 - m2))
      / (4 * M * M)) = q at *
    have e1 : q ^ 2 = ((M ^ 2 + m1 ^ 2 - m2 ^ 2) / (2 * M)) ^ 2 - m1 ^ 2 := by
      rw [hsq]; field_simp; ring
    have e2 : q ^ 2 = ((M ^ 2 + m2 ^ 2 - m1 ^ 2) / (2 * M)) ^ 2 - m2 ^ 2 := by
      rw [hsq]; field_simp; ring
    have s1 : Real.sqrt (m1 * m1 + q * q) = (M ^ 2 + m1 ^ 2 - m2 ^ 2) / (2 * M) := by
      rw [show m1 * m1 + q * q = ((M ^ 2 + m1 ^ 2 - m2 ^ 2) / (2 * M)) ^ 2 by linear_combination e1]
      refine Real.sqrt_sq (div_nonneg ?_ (by positivity))
      nlinarith
    have s2 : Real.sqrt (m2 * m2 + q * q) = (M ^ 2 + m2 ^ 2 - m1 ^ 2) / (2 * M) := by
      rw [show m2 * m2 + q * q = ((M ^ 2 + m2 ^ 2 - m1 ^ 2) / (2 * M)) ^ 2 by linear_combination e2]
      refine Real.sqrt_sq (div_nonneg ?_ (by positivity))
      nlinarith
    refine ⟨e1, s1, s2, ?_⟩
    rw [s1, s2]
    field_simp
    ring

/-- what is needed of the breakup momenta -/
structure Momenta (n : ℕ) (m M q : ℕ → ℝ) : Prop where
  nonneg : ∀ i, i + 1 < n → 0 ≤ q (i + 1)
  sum : ∀ i, i + 1 < n → Real.sqrt (M i * M i + q (i + 1) * q (i + 1))
    + Real.sqrt (m (i + 1) * m (i + 1) + q (i + 1) * q (i + 1)) = M (i + 1)

theorem valid_nonneg {n : ℕ} {m M : ℕ → ℝ} (h : ValidMasses n m M) : ∀ i < n, 0 ≤ M i := by
  intro i hi
  rcases i with _ | i
  · rw [h.first]; exact h.nonneg 0 hi
  · exact (h.pos i hi).le

theorem breakupLoop_spec (g : PS) (h : ValidMasses g.n g.m g.M) :
    ∀ k, k < g.n → ∃ q, g.breakupLoop k = some q ∧ q 0 = g.q 0 ∧
      ∀ i, i < k → Phys.breakupMomentum (g.M (i + 1)) (g.M i) (g.m (i + 1)) = some (q (i + 1)) := by
  intro k
  induction k with
  | zero => exact fun _ => ⟨g.q, rfl, rfl, fun i hi => absurd hi (Nat.not_lt_zero i)⟩
  | succ k ih =>
    intro hk
    obtain ⟨q, e, h0, hq⟩ := ih (by omega)
    obtain ⟨v, ev, _⟩ := breakup_spec (h.pos k hk) (valid_nonneg h k (by omega)) (h.nonneg (k + 1) hk)
      (h.step k hk)
    refine ⟨Function.update q (k + 1) v, ?_, ?_, ?_⟩
    · unfold PS.breakupLoop
      rw [e, ev]
      rfl
    · rw [Function.update_of_ne (by omega), h0]
    · intro i hi
      by_cases hik : i = k
      · subst hik
        rw [Function.update_self, ev]
      · rw [Function.update_of_ne (by omega)]
        exact hq i (by omega)

/-- `calcBreakupMomenta` -/
theorem calcBreakupMomenta_spec (g : PS) (h : ValidMasses g.n g.m g.M) (hn : 1 ≤ g.n) :
    ∃ q, g.calcBreakupMomenta = some { g with q := q } ∧ Momenta g.n g.m g.M q ∧
      ∀ i, i + 1 < g.n → Phys.breakupMomentum (g.M (i + 1)) (g.M i) (g.m (i + 1)) = some (q (i + 1)) := by
  obtain ⟨q, e, _, hq⟩ := breakupLoop_spec g h (g.n - 1) (by omega)
  have hq' : ∀ i, i + 1 < g.n →
      Phys.breakupMomentum (g.M (i + 1)) (g.M i) (g.m (i + 1)) = some (q (i + 1)) :=
    fun i hi => hq i (by omega)
  refine ⟨q, ?_, ⟨fun i hi => ?_, fun i hi => ?_⟩, hq'⟩
  · unfold PS.calcBreakupMomenta
    rw [e]
    rfl
  · obtain ⟨v, ev, h0, _⟩ := breakup_spec (h.pos i hi) (valid_nonneg h i (by omega))
      (h.nonneg (i + 1) hi) (h.step i hi)
    rw [hq' i hi] at ev
    cases ev
    exact h0
  · obtain ⟨v, ev, _, _, _, _, hs⟩ := breakup_spec (h.pos i hi) (valid_nonneg h i (by omega))
      (h.nonneg (i + 1) hi) (h.step i hi)
    rw [hq' i hi] at ev
    cases ev
    exact hs

/-! ## `BLOCK` kinematics -/

theorem total_congr {ds ds' : ℕ → LV} {k : ℕ} (h : ∀ i ≤ k, ds i = ds' i) : total ds k = total ds' k := by
  induction k with
  | zero => exact h 0 (le_refl 0)
  | succ k ih =>
    show total ds k + ds (k + 1) = total ds' k + ds' (k + 1)
    rw [ih (fun i hi => h i (by omega)), h (k + 1) (le_refl _)]

theorem sub_add_cancel' (P d : LV) : P - d + d = P := by
  ext <;> simp

theorem blockLoop_frame (g : PS) : ∀ (i : ℕ) (P : LV) (ds : ℕ → LV) (j : ℕ), i < j →
    g.blockLoop i P ds j = ds j := by
  intro i
  induction i with
  | zero =>
    intro P ds j hj
    exact Function.update_of_ne (by omega) _ _
  | succ i ih =>
    intro P ds j hj
    unfold PS.blockLoop
    dsimp only
    rw [ih _ _ j (by omega), Function.update_of_ne (by omega)]

/-- positive energy -/
theorem energy_pos {p : LV} (h : 0 < p.m2) (ht : 0 ≤ p.t) : 0 < p.t := by
  rcases lt_or_eq_of_le ht with h1 | h1
  · exact h1
  · exfalso
    unfold LV.m2 at h
    rw [← h1] at h
    nlinarith [mul_self_nonneg p.x, mul_self_nonneg p.y, mul_self_nonneg p.z]

theorem blockLoop_spec (g : PS) (hv : ValidMasses g.n g.m g.M) (hq : Momenta g.n g.m g.M g.q)
    (hc : ∀ i, i + 1 < g.n → g.cosTheta (i + 1) ^ 2 ≤ 1) :
    ∀ (i : ℕ) (P : LV) (ds : ℕ → LV), i < g.n → P.m2 = g.M i ^ 2 → 0 ≤ P.t →
      total (g.blockLoop i P ds) i = P ∧
      ∀ j ≤ i, (g.blockLoop i P ds j).m2 = g.m j ^ 2 ∧ 0 ≤ (g.blockLoop i P ds j).t ∧
        (total (g.blockLoop i P ds) j).m2 = g.M j ^ 2 := by
  intro i
  induction i with
  | zero =>
    intro P ds hn hP ht
    have e : g.blockLoop 0 P ds 0 = P := Function.update_self _ _ _
    refine ⟨e, fun j hj => ?_⟩
    obtain rfl : j = 0 := by omega
    rw [show total (g.blockLoop 0 P ds) 0 = P from e, e, hP, hv.first]
    exact ⟨rfl, ht, rfl⟩
  | succ i ih =>
    intro P ds hn hP ht
    have hM := hv.pos i hn
    have hm0 := hv.nonneg (i + 1) hn
    have hM0 := valid_nonneg hv i (by omega)
    have hPt : 0 < P.t := energy_pos (by rw [hP]; positivity) ht
    have hPm : 0 < P.m2 := by rw [hP]; positivity
    have hb := (b2_boostVector hPm).1
    have hqs := hq.sum i hn
    have hcs := hc i hn
    have hsn : Real.sqrt (1 - g.cosTheta (i + 1) * g.cosTheta (i + 1)) ^ 2
        = 1 - g.cosTheta (i + 1) ^ 2 := by
      rw [Real.sq_sqrt (by nlinarith)]; ring
    have hcp := Real.cos_sq_add_sin_sq (g.phi (i + 1))
    have hE2 : Real.sqrt (g.m (i + 1) * g.m (i + 1) + g.q (i + 1) * g.q (i + 1)) ^ 2
        = g.m (i + 1) ^ 2 + g.q (i + 1) ^ 2 := by
      rw [Real.sq_sqrt (by nlinarith [mul_self_nonneg (g.m (i + 1)), mul_self_nonneg (g.q (i + 1))])]; ring
    have hE1 : Real.sqrt (g.M i * g.M i + g.q (i + 1) * g.q (i + 1)) ^ 2
        = g.M i ^ 2 + g.q (i + 1) ^ 2 := by
      rw [Real.sq_sqrt (by nlinarith [mul_self_nonneg (g.M i), mul_self_nonneg (g.q (i + 1))])]; ring
    have hE0 := Real.sqrt_nonneg (g.m (i + 1) * g.m (i + 1) + g.q (i + 1) * g.q (i + 1))
    have hE10 := Real.sqrt_nonneg (g.M i * g.M i + g.q (i + 1) * g.q (i + 1))
    unfold PS.blockLoop
    dsimp only
    generalize Real.sqrt (1 - g.cosTheta (i + 1) * g.cosTheta (i + 1)) = sn at *
    generalize Real.sqrt (g.m (i + 1) * g.m (i + 1) + g.q (i + 1) * g.q (i + 1)) = E at *
    generalize Real.sqrt (g.M i * g.M i + g.q (i + 1) * g.q (i + 1)) = E1 at *
    generalize hd : (⟨g.q (i + 1) * sn * Real.cos (g.phi (i + 1)),
      g.q (i + 1) * sn * Real.sin (g.phi (i + 1)), g.q (i + 1) * g.cosTheta (i + 1), E⟩ : LV) = d
    have hp2 : d.x * d.x + d.y * d.y + d.z * d.z = g.q (i + 1) ^ 2 := by
      rw [← hd]
      dsimp only
      linear_combination g.q (i + 1) ^ 2 * sn ^ 2 * hcp + g.q (i + 1) ^ 2 * hsn
    have hdt : d.t = E := by rw [← hd]
    have hdm : d.m2 = g.m (i + 1) ^ 2 := by
      unfold LV.m2
      rw [hp2, hdt]
      linear_combination hE2
    have hPd : P - d.boost P.boostVector = ((LV.mk 0 0 0 (g.M (i + 1))) - d).boost P.boostVector := by
      rw [boost_sub hb, boost_rest hM hP hPt]
    have hPdm : (P - d.boost P.boostVector).m2 = g.M i ^ 2 := by
      rw [hPd, m2_boost hb]
      unfold LV.m2
      simp only [sub_x, sub_y, sub_z, sub_t, hdt]
      linear_combination -hp2 + hE1 - (g.M (i + 1) - E + E1) * hqs
    have hPdt : 0 ≤ (P - d.boost P.boostVector).t := by
      have h1 : (P - d.boost P.boostVector).m2 = ((LV.mk 0 0 0 (g.M (i + 1))) - d).m2 := by
        rw [hPd, m2_boost hb]
      rw [hPd]
      refine boost_energy hb (by rw [← h1, hPdm]; positivity) ?_
      simp only [sub_t, hdt]
      linarith
    obtain ⟨t1, t2⟩ := ih (P - d.boost P.boostVector)
      (Function.update ds (i + 1) (d.boost P.boostVector)) (by omega) hPdm hPdt
    have hlast := blockLoop_frame g i (P - d.boost P.boostVector)
      (Function.update ds (i + 1) (d.boost P.boostVector)) (i + 1) (Nat.lt_succ_self i)
    rw [Function.update_self] at hlast
    generalize g.blockLoop i (P - d.boost P.boostVector)
      (Function.update ds (i + 1) (d.boost P.boostVector)) = res at *
    have htot : total res (i + 1) = P := by
      show total res i + res (i + 1) = P
      rw [t1, hlast, sub_add_cancel']
    refine ⟨htot, fun j hj => ?_⟩
    by_cases hji : j = i + 1
    · subst hji
      rw [htot, hP, hlast]
      exact ⟨by rw [m2_boost hb, hdm], boost_energy hb (by rw [hdm]; positivity) (by rw [hdt]; exact hE0),
        rfl⟩
    · exact t2 j (by omega)

/-! ## `RAUBOLD_LYNCH` kinematics -/

/-- linear maps that do not change invariant masses and keep energies positive -/
structure Lorentz (f : LV → LV) : Prop where
  add : ∀ p q, f (p + q) = f p + f q
  m2 : ∀ p, (f p).m2 = p.m2
  energy : ∀ p, 0 ≤ p.m2 → 0 ≤ p.t → 0 ≤ (f p).t

theorem lorentz_boost {b : V3} (hb : b2 b < 1) : Lorentz (fun p => p.boost b) :=
  ⟨boost_add hb, m2_boost hb, fun _ h ht => boost_energy hb h ht⟩

theorem lorentz_rotate {cT sT : ℝ} (h : sT ^ 2 + cT ^ 2 = 1) (p : ℝ) :
    Lorentz (PS.rotate cT sT (Real.cos p) (Real.sin p)) := by
  have hp := Real.cos_sq_add_sin_sq p
  refine ⟨fun v w => ?_, fun v => ?_, fun v _ ht => ht⟩
  · unfold PS.rotate
    ext <;> simp only [add_x, add_y, add_z, add_t] <;> ring
  · unfold PS.rotate LV.m2
    dsimp only
    linear_combination -((sT * v.z + cT * v.x) ^ 2 + v.y ^ 2) * hp - (v.z ^ 2 + v.x ^ 2) * h

theorem Lorentz.total {f : LV → LV} (hf : Lorentz f) (ds : ℕ → LV) (k : ℕ) :
    total (fun j => f (ds j)) k = f (total ds k) := by
  induction k with
  | zero => rfl
  | succ k ih =>
    show Spec.total (fun j => f (ds j)) k + f (ds (k + 1)) = f (Spec.total ds k + ds (k + 1))
    rw [ih, hf.add]

/-- what holds for the first `i + 1` daughters, apart from the frame -/
def Inner (g : PS) (i : ℕ) (ds : ℕ → LV) : Prop :=
  ∀ j ≤ i, (ds j).m2 = g.m j ^ 2 ∧ 0 ≤ (ds j).t ∧ (total ds j).m2 = g.M j ^ 2

theorem Lorentz.inner {f : LV → LV} (hf : Lorentz f) {g : PS} {i : ℕ} {ds ds' : ℕ → LV}
    (h : Inner g i ds) (e : ∀ j ≤ i, ds' j = f (ds j)) : Inner g i ds' ∧ Spec.total ds' i = f (Spec.total ds i) := by
  have ht : ∀ j ≤ i, Spec.total ds' j = f (Spec.total ds j) := by
    intro j hj
    rw [← hf.total]
    exact total_congr fun k hk => e k (by omega)
  refine ⟨fun j hj => ?_, ht i (le_refl i)⟩
  obtain ⟨h1, h2, h3⟩ := h j hj
  rw [e j hj, ht j hj, hf.m2, hf.m2]
  exact ⟨h1, hf.energy _ (by rw [h1]; positivity) h2, h3⟩

theorem rauboldLoop_zero (g : PS) (nBody : LV) (hv : ValidMasses g.n g.m g.M) (hn : 2 ≤ g.n) :
    Inner g 0 (g.rauboldLoop nBody 0) ∧
    total (g.rauboldLoop nBody 0) 0 = ⟨0, 0, g.q 1, Real.sqrt (g.M 0 * g.M 0 + g.q 1 * g.q 1)⟩ := by
  have e : g.rauboldLoop nBody 0 0 = ⟨0, 0, g.q 1, Real.sqrt (g.m 0 * g.m 0 + g.q 1 * g.q 1)⟩ :=
    Function.update_self _ _ _
  have hm : (LV.mk 0 0 (g.q 1) (Real.sqrt (g.m 0 * g.m 0 + g.q 1 * g.q 1))).m2 = g.m 0 ^ 2 := by
    unfold LV.m2
    dsimp only
    rw [Real.mul_self_sqrt (by nlinarith [mul_self_nonneg (g.m 0), mul_self_nonneg (g.q 1)])]
    ring
  refine ⟨fun j hj => ?_, ?_⟩
  · obtain rfl : j = 0 := by omega
    rw [show total (g.rauboldLoop nBody 0) 0 = g.rauboldLoop nBody 0 0 from rfl, e, hm, hv.first]
    exact ⟨rfl, Real.sqrt_nonneg _, rfl⟩
  · rw [hv.first]
    exact e

/-- a particle at rest, boosted along z such that it gets momentum `q` -/
theorem boost_z {M q : ℝ} (hM : 0 < M) (hq : 0 ≤ q) (beta : ℝ)
    (hb : beta = if q = 0 then 0 else 1 / Real.sqrt (1 + M / q * (M / q))) :
    b2 ⟨0, 0, beta⟩ < 1 ∧
    (LV.mk 0 0 0 M).boost ⟨0, 0, beta⟩ = ⟨0, 0, q, Real.sqrt (M * M + q * q)⟩ := by
  -- beta = q / E
  have hE : 0 < Real.sqrt (M * M + q * q) := Real.sqrt_pos.mpr (by positivity)
  have hE2 := Real.sq_sqrt (show 0 ≤ M * M + q * q by positivity)
  have hbeta : beta = q / Real.sqrt (M * M + q * q) := by
    rw [hb]
    by_cases h0 : q = 0
    · rw [if_pos h0, h0, zero_div]
    · rw [if_neg h0]
      have hqp : 0 < q := lt_of_le_of_ne hq (Ne.symm h0)
      have : 1 + M / q * (M / q) = (M * M + q * q) / q ^ 2 := by field_simp; ring
      rw [this, Real.sqrt_div' _ (sq_nonneg q), Real.sqrt_sq hq, one_div_div]
  generalize Real.sqrt (M * M + q * q) = E at *
  have hm2 : (LV.mk 0 0 q E).m2 = M ^ 2 := by
    unfold LV.m2
    dsimp only
    linear_combination hE2
  have hbv : (LV.mk 0 0 q E).boostVector = ⟨0, 0, beta⟩ := by
    unfold LV.boostVector
    rw [hbeta]
    simp
  constructor
  · rw [← hbv]
    exact (b2_boostVector (by rw [hm2]; positivity)).1
  · rw [← hbv]
    exact boost_rest hM hm2 hE

theorem rauboldStep_spec (g : PS) (nBody : LV) (hv : ValidMasses g.n g.m g.M)
    (hq : Momenta g.n g.m g.M g.q) {i : ℕ} (hi : i + 1 < g.n) (hc : g.cosTheta (i + 1) ^ 2 ≤ 1)
    {ds : ℕ → LV} (hin : Inner g i ds)
    (ht : total ds i = ⟨0, 0, g.q (i + 1), Real.sqrt (g.M i * g.M i + g.q (i + 1) * g.q (i + 1))⟩)
    (hm : nBody.m2 = g.M (g.n - 1) ^ 2) (hE : 0 ≤ nBody.t) :
    Inner g (i + 1) (g.rauboldStep nBody ds (i + 1)) ∧
    total (g.rauboldStep nBody ds (i + 1)) (i + 1) =
      if i + 1 < g.n - 1 then
        ⟨0, 0, g.q (i + 2), Real.sqrt (g.M (i + 1) * g.M (i + 1) + g.q (i + 2) * g.q (i + 2))⟩
      else nBody := by
  have hM := hv.pos i hi
  have hqs := hq.sum i hi
  -- after the new daughter
  generalize hds1 : Function.update ds (i + 1) ⟨0, 0, -(g.q (i + 1)),
    Real.sqrt (g.m (i + 1) * g.m (i + 1) + g.q (i + 1) * g.q (i + 1))⟩ = ds1
  have e1 : ds1 (i + 1) = ⟨0, 0, -(g.q (i + 1)),
      Real.sqrt (g.m (i + 1) * g.m (i + 1) + g.q (i + 1) * g.q (i + 1))⟩ := by
    rw [← hds1]; exact Function.update_self _ _ _
  have e2 : ∀ j ≤ i, ds1 j = ds j := by
    intro j hj
    rw [← hds1, Function.update_of_ne (by omega)]
  have t1 : total ds1 (i + 1) = ⟨0, 0, 0, g.M (i + 1)⟩ := by
    show total ds1 i + ds1 (i + 1) = _
    rw [total_congr e2, ht, e1]
    ext <;> simp only [add_x, add_y, add_z, add_t]
    · ring
    · ring
    · ring
    · exact hqs
  have in1 : Inner g (i + 1) ds1 := by
    intro j hj
    by_cases hji : j = i + 1
    · subst hji
      rw [t1, e1]
      refine ⟨?_, Real.sqrt_nonneg _, ?_⟩
      · unfold LV.m2
        dsimp only
        rw [Real.mul_self_sqrt (by
          nlinarith [mul_self_nonneg (g.m (i + 1)), mul_self_nonneg (g.q (i + 1))])]
        ring
      · unfold LV.m2
        dsimp only
        ring
    · rw [e2 j (by omega), total_congr (fun k hk => e2 k (by omega))]
      exact hin j (by omega)
  -- rotation
  have hsn : Real.sqrt (1 - g.cosTheta (i + 1) * g.cosTheta (i + 1)) ^ 2 + g.cosTheta (i + 1) ^ 2 = 1 := by
    rw [Real.sq_sqrt (by nlinarith)]; ring
  have hL := lorentz_rotate hsn (g.phi (i + 1))
  unfold PS.rauboldStep
  dsimp only
  rw [hds1]
  obtain ⟨ds2, hds2⟩ : ∃ f : ℕ → LV, f = fun j => PS.rotate (g.cosTheta (i + 1))
    (Real.sqrt (1 - g.cosTheta (i + 1) * g.cosTheta (i + 1))) (Real.cos (g.phi (i + 1)))
    (Real.sin (g.phi (i + 1))) (ds1 j) := ⟨_, rfl⟩
  obtain ⟨in2, t2⟩ := hL.inner (ds' := ds2) in1 (fun j hj => by rw [hds2])
  have t2' : total ds2 (i + 1) = ⟨0, 0, 0, g.M (i + 1)⟩ := by
    rw [t2, t1]
    unfold PS.rotate
    simp
  -- boost
  by_cases hlast : i + 1 < g.n - 1
  · rw [if_pos hlast, if_pos hlast]
    obtain ⟨hb, hz⟩ := boost_z hM (hq.nonneg (i + 1) (by omega)) _ rfl
    refine (fun key => ⟨key.1, key.2.trans ?_⟩) ((lorentz_boost hb).inner in2
      (fun j hj => by rw [if_pos hj, if_pos hj, hds2]))
    rw [t2', hz]
  · rw [if_neg hlast, if_neg hlast]
    have hM' := hM
    rw [show i + 1 = g.n - 1 by omega] at hM'
    have hP : 0 < nBody.m2 := by rw [hm]; positivity
    refine (fun key => ⟨key.1, key.2.trans ?_⟩) ((lorentz_boost (b2_boostVector hP).1).inner in2
      (fun j hj => by rw [if_pos (show j < g.n by omega), if_pos hj, hds2]))
    rw [t2', show i + 1 = g.n - 1 by omega]
    exact boost_rest hM' hm (energy_pos hP hE)

theorem rauboldLoop_spec (g : PS) (nBody : LV) (hv : ValidMasses g.n g.m g.M)
    (hq : Momenta g.n g.m g.M g.q) (hn : 2 ≤ g.n) (hc : ∀ i, i + 1 < g.n → g.cosTheta (i + 1) ^ 2 ≤ 1)
    (hm : nBody.m2 = g.M (g.n - 1) ^ 2) (hE : 0 ≤ nBody.t) :
    ∀ i, i < g.n → Inner g i (g.rauboldLoop nBody i) ∧
      total (g.rauboldLoop nBody i) i =
        if i < g.n - 1 then
          ⟨0, 0, g.q (i + 1), Real.sqrt (g.M i * g.M i + g.q (i + 1) * g.q (i + 1))⟩
        else nBody := by
  intro i
  induction i with
  | zero =>
    intro _
    rw [if_pos (by omega)]
    exact rauboldLoop_zero g nBody hv hn
  | succ i ih =>
    intro hi
    obtain ⟨h1, h2⟩ := ih (by omega)
    rw [if_pos (by omega)] at h2
    exact rauboldStep_spec g nBody hv hq hi (hc i hi) h1 h2 hm hE

/-! ## the property -/

/-- both algorithms -/
theorem calcEventKinematics_spec (g : PS) (nBody : LV) (hv : ValidMasses g.n g.m g.M)
    (hq : Momenta g.n g.m g.M g.q) (hn : 2 ≤ g.n) (hc : ∀ i, i + 1 < g.n → g.cosTheta (i + 1) ^ 2 ≤ 1)
    (hm : nBody.m2 = g.M (g.n - 1) ^ 2) (hE : 0 ≤ nBody.t) :
    IsDecay g.n g.m nBody (g.calcEventKinematics nBody).daughters ∧
    SubMasses g.n g.M (g.calcEventKinematics nBody).daughters := by
  unfold PS.calcEventKinematics
  cases hk : g.kinType with
  | raubold =>
    dsimp only
    obtain ⟨h1, h2⟩ := rauboldLoop_spec g nBody hv hq hn hc hm hE (g.n - 1) (by omega)
    rw [if_neg (by omega)] at h2
    exact ⟨⟨h2, fun i hi => (h1 i (by omega)).1, fun i hi => (h1 i (by omega)).2.1⟩,
      fun i hi => (h1 i (by omega)).2.2⟩
  | block =>
    dsimp only
    obtain ⟨h1, h2⟩ := blockLoop_spec g hv hq hc (g.n - 1) nBody g.daughters (by omega) hm hE
    exact ⟨⟨h1, fun i hi => (h2 i (by omega)).1, fun i hi => (h2 i (by omega)).2.1⟩,
      fun i hi => (h2 i (by omega)).2.2⟩

/-- **C51.** For every number of particles, every set of masses of the subsystems that is possible, all
angles, both algorithms and every moving or resting n-body system of the right mass: the calculated
daughters conserve energy and momentum, have their masses and non-negative energies, and the subsystems
have the given masses. -/
theorem kinematics_spec (g : PS) (hn : 2 ≤ g.n) (hv : ValidMasses g.n g.m g.M)
    (hc : ∀ i, i + 1 < g.n → g.cosTheta (i + 1) ^ 2 ≤ 1) (nBody : LV)
    (hm : nBody.m2 = g.M (g.n - 1) ^ 2) (hE : 0 ≤ nBody.t) :
    ∃ g', g.calcBreakupMomenta = some g' ∧
      IsDecay g.n g.m nBody (g'.calcEventKinematics nBody).daughters ∧
      SubMasses g.n g.M (g'.calcEventKinematics nBody).daughters := by
  obtain ⟨q, e, hq, _⟩ := calcBreakupMomenta_spec g hv (by omega)
  exact ⟨_, e, calcEventKinematics_spec { g with q := q } nBody hv hq hn hc hm hE⟩

/-- a subsystem that is lighter than its parts ends the program -/
theorem kinematics_impossible (g : PS) {i : ℕ} (hi : i + 1 < g.n)
    (h : g.M (i + 1) < g.M i + g.m (i + 1)) : g.calcBreakupMomenta = none := by
  have hb : Phys.breakupMomentum (g.M (i + 1)) (g.M i) (g.m (i + 1)) = none := by
    unfold Phys.breakupMomentum Phys.breakupMomentumSquared
    dsimp only
    rw [if_pos ⟨rfl, h⟩]
    rfl
  have hl : ∀ k, i < k → g.breakupLoop k = none := by
    intro k
    induction k with
    | zero => exact fun hk => absurd hk (Nat.not_lt_zero i)
    | succ k ih =>
      intro hk
      unfold PS.breakupLoop
      by_cases hik : i = k
      · subst hik
        rw [hb]
        cases g.breakupLoop i <;> rfl
      · rw [ih (by omega)]
        rfl
  unfold PS.calcBreakupMomenta
  rw [hl (g.n - 1) (by omega)]
  rfl

end Rpwa.Gen

import Verif.Props.PhaseSpaceDensity
import Verif.Props.KinematicsRoundTrip
import Mathlib.Tactic.IntervalCases

/-!
# C51: every possible decay can be generated
-/

namespace Rpwa.Gen

open Spec

/-- the opposite boost undoes a boost -/
theorem boost_neg_boost {b : V3} (hb : b2 b < 1) (p : LV) : (p.boost b.neg).boost b = p := by
  have hs : 0 < Real.sqrt (1 - b2 b) := Real.sqrt_pos.mpr (by linarith)
  have hs2 := Real.sq_sqrt (show 0 ≤ 1 - b2 b by linarith)
  have hn : b2 b.neg = b2 b := b2_neg b
  have h0 := b2_nonneg b
  obtain ⟨g, hg⟩ : ∃ g, g = 1 / Real.sqrt (1 - b2 b) := ⟨_, rfl⟩
  obtain ⟨g2, hg2⟩ : ∃ g2, g2 = if b2 b > 0 then (g - 1) / b2 b else 0 := ⟨_, rfl⟩
  have e : ∀ q : LV, q.boost b = ⟨q.x + g2 * (b.x * q.x + b.y * q.y + b.z * q.z) * b.x + g * b.x * q.t,
      q.y + g2 * (b.x * q.x + b.y * q.y + b.z * q.z) * b.y + g * b.y * q.t,
      q.z + g2 * (b.x * q.x + b.y * q.y + b.z * q.z) * b.z + g * b.z * q.t,
      g * (q.t + (b.x * q.x + b.y * q.y + b.z * q.z))⟩ := by
    intro q
    rw [hg2, hg]
    rfl
  have e' : p.boost b.neg = ⟨p.x + g2 * (b.neg.x * p.x + b.neg.y * p.y + b.neg.z * p.z) * b.neg.x + g * b.neg.x * p.t,
      p.y + g2 * (b.neg.x * p.x + b.neg.y * p.y + b.neg.z * p.z) * b.neg.y + g * b.neg.y * p.t,
      p.z + g2 * (b.neg.x * p.x + b.neg.y * p.y + b.neg.z * p.z) * b.neg.z + g * b.neg.z * p.t,
      g * (p.t + (b.neg.x * p.x + b.neg.y * p.y + b.neg.z * p.z))⟩ := by
    rw [hg2, hg, ← hn]
    rfl
  have hg1 : g ^ 2 * (1 - b2 b) = 1 := by
    rw [hg, div_pow, hs2]
    have : 1 - b2 b ≠ 0 := by linarith
    field_simp
  have k1 : g2 * b2 b = g - 1 := by
    rw [hg2]
    by_cases h : b2 b > 0
    · rw [if_pos h, div_mul_cancel₀ _ h.ne']
    · have h3 : b2 b = 0 := by linarith
      rw [if_neg h, zero_mul, hg, h3]
      simp
  have k2 : b2 b = 0 ∨ g2 * (g + 1) = g ^ 2 := by
    by_cases h : b2 b = 0
    · exact Or.inl h
    · right
      have : b2 b * (g2 * (g + 1) - g ^ 2) = 0 := by
        linear_combination (g + 1) * k1 + hg1
      rcases mul_eq_zero.mp this with h4 | h4
      · exact absurd h4 h
      · linarith
  have k3 : (b.x * p.x + b.y * p.y + b.z * p.z) * (g2 * (g + 1) - g ^ 2) = 0 := by
    rcases k2 with h | h
    · have hx : b.x = 0 ∧ b.y = 0 ∧ b.z = 0 := by
        unfold b2 at h
        refine ⟨?_, ?_, ?_⟩ <;> nlinarith [mul_self_nonneg b.x, mul_self_nonneg b.y, mul_self_nonneg b.z]
      rw [hx.1, hx.2.1, hx.2.2]
      ring
    · rw [h]; ring
  rw [e', e]
  unfold b2 at k1 hg1
  unfold V3.neg
  dsimp only
  ext
  · dsimp only
    linear_combination b.x * k3 + b.x * (g2 * (b.x * p.x + b.y * p.y + b.z * p.z) - g * p.t) * k1
  · dsimp only
    linear_combination b.y * k3 + b.y * (g2 * (b.x * p.x + b.y * p.y + b.z * p.z) - g * p.t) * k1
  · dsimp only
    linear_combination b.z * k3 + b.z * (g2 * (b.x * p.x + b.y * p.y + b.z * p.z) - g * p.t) * k1
  · dsimp only
    linear_combination p.t * hg1 + g * (b.x * p.x + b.y * p.y + b.z * p.z) * k1

/-- reverse triangle inequality: an invariant mass is not less than the sum of the masses -/
theorem mass_add {p q : LV} (hp : 0 ≤ p.m2) (hq : 0 ≤ q.m2) (hpt : 0 ≤ p.t) (hqt : 0 ≤ q.t) :
    Real.sqrt p.m2 + Real.sqrt q.m2 ≤ Real.sqrt (p + q).m2 := by
  have hd : Real.sqrt p.m2 * Real.sqrt q.m2 ≤ mdot p q := by
    rw [← Real.sqrt_mul hp]
    have hP : p.P ≤ p.t := (abs_le_of_sq_le_sq' (by rw [P_sq]; linarith) hpt).2
    have hQ : q.P ≤ q.t := (abs_le_of_sq_le_sq' (by rw [P_sq]; linarith) hqt).2
    have hP0 := P_nonneg p
    have hQ0 := P_nonneg q
    have hcs : p.x * q.x + p.y * q.y + p.z * q.z ≤ p.P * q.P := by
      refine (abs_le_of_sq_le_sq' ?_ (mul_nonneg hP0 hQ0)).2
      rw [mul_pow, P_sq, P_sq]
      unfold LV.m2
      nlinarith [sq_nonneg (p.x * q.y - p.y * q.x), sq_nonneg (p.x * q.z - p.z * q.x),
        sq_nonneg (p.y * q.z - p.z * q.y)]
    have h1 : p.t * q.t - p.P * q.P ≤ mdot p q := by
      unfold mdot
      linarith
    refine le_trans ?_ h1
    refine Real.sqrt_le_iff.mpr ⟨by nlinarith, ?_⟩
    have e1 : p.m2 = p.t ^ 2 - p.P ^ 2 := by rw [P_sq]; ring
    have e2 : q.m2 = q.t ^ 2 - q.P ^ 2 := by rw [P_sq]; ring
    rw [e1, e2]
    nlinarith [sq_nonneg (p.t * q.P - q.t * p.P)]
  refine Real.le_sqrt_of_sq_le ?_
  rw [m2_add, add_sq, Real.sq_sqrt hp, Real.sq_sqrt hq]
  linarith

/-- polar coordinates of a momentum of length `q` -/
theorem spherical {x y z q : ℝ} (hq : 0 ≤ q) (h : x * x + y * y + z * z = q ^ 2) :
    ∃ c phi, c ^ 2 ≤ 1 ∧ q * Real.sqrt (1 - c * c) * Real.cos phi = x ∧
      q * Real.sqrt (1 - c * c) * Real.sin phi = y ∧ q * c = z := by
  obtain ⟨phi, hx, hy⟩ := polar x y
  by_cases h0 : q = 0
  · rw [h0] at h ⊢
    have hx0 : x = 0 := by nlinarith [mul_self_nonneg x, mul_self_nonneg y, mul_self_nonneg z]
    have hy0 : y = 0 := by nlinarith [mul_self_nonneg x, mul_self_nonneg y, mul_self_nonneg z]
    have hz0 : z = 0 := by nlinarith [mul_self_nonneg x, mul_self_nonneg y, mul_self_nonneg z]
    exact ⟨0, 0, by norm_num, by rw [hx0]; ring, by rw [hy0]; ring, by rw [hz0]; ring⟩
  · have hqp : 0 < q := lt_of_le_of_ne hq (Ne.symm h0)
    have e : 1 - z / q * (z / q) = (x ^ 2 + y ^ 2) / q ^ 2 := by
      field_simp
      linear_combination -h
    have e2 : q * Real.sqrt (1 - z / q * (z / q)) = Real.sqrt (x ^ 2 + y ^ 2) := by
      rw [e, Real.sqrt_div' _ (sq_nonneg q), Real.sqrt_sq hq]
      field_simp
    refine ⟨z / q, phi, ?_, ?_, ?_, by field_simp⟩
    · have : 0 ≤ (x ^ 2 + y ^ 2) / q ^ 2 := by positivity
      nlinarith
    · rw [e2]; exact hx.symm
    · rw [e2]; exact hy.symm

/-- one two-body decay: the daughter in the rest frame of its mother has the breakup momentum -/
theorem twoBody_decay {P d : LV} {M a m q : ℝ} (hM : 0 < M) (hP : P.m2 = M ^ 2) (ht : 0 < P.t)
    (ha : (P - d).m2 = a ^ 2) (hd : d.m2 = m ^ 2) (hq : 0 ≤ q)
    (hE : Real.sqrt (m * m + q * q) = (M ^ 2 + m ^ 2 - a ^ 2) / (2 * M)) :
    ∃ c phi, c ^ 2 ≤ 1 ∧ (LV.mk (q * Real.sqrt (1 - c * c) * Real.cos phi)
      (q * Real.sqrt (1 - c * c) * Real.sin phi) (q * c) (Real.sqrt (m * m + q * q))).boost P.boostVector = d := by
  have hPm : 0 < P.m2 := by rw [hP]; positivity
  have hb := (b2_boostVector hPm).1
  have hb' : b2 P.boostVector.neg < 1 := by rw [b2_neg]; exact hb
  have he := rest_energy hM hP ht d
  have hm : (d.boost P.boostVector.neg).m2 = m ^ 2 := by rw [m2_boost hb', hd]
  have hback := boost_neg_boost hb d
  rw [m2_sub] at ha
  generalize d.boost P.boostVector.neg = d' at *
  have hdP : mdot d P = mdot P d := by unfold mdot; ring
  have hE2 := Real.sq_sqrt (show 0 ≤ m * m + q * q by
    nlinarith [mul_self_nonneg m, mul_self_nonneg q])
  have ht' : d'.t = Real.sqrt (m * m + q * q) := by
    rw [hE]
    field_simp
    linear_combination 2 * he + 2 * hdP - ha + hP + hd
  have h3 : d'.x * d'.x + d'.y * d'.y + d'.z * d'.z = q ^ 2 := by
    unfold LV.m2 at hm
    rw [ht'] at hm
    linear_combination hE2 - hm
  obtain ⟨c, phi, hc, h4, h5, h6⟩ := spherical hq h3
  refine ⟨c, phi, hc, ?_⟩
  rw [h4, h5, h6, ← ht']
  exact hback

/-- the first particles of a decay and their sums -/
theorem total_props {n : ℕ} {m : ℕ → ℝ} {ds : ℕ → LV} (hs : ∀ i < n, (ds i).m2 = m i ^ 2)
    (hm : ∀ i < n, 0 ≤ m i) (he : ∀ i < n, 0 ≤ (ds i).t) :
    ∀ i < n, 0 ≤ (total ds i).m2 ∧ 0 ≤ (total ds i).t ∧
      (i + 1 < n → Real.sqrt (total ds i).m2 + m (i + 1) ≤ Real.sqrt (total ds (i + 1)).m2) := by
  have key : ∀ i, i + 1 < n → 0 ≤ (total ds i).m2 → 0 ≤ (total ds i).t →
      Real.sqrt (total ds i).m2 + m (i + 1) ≤ Real.sqrt (total ds (i + 1)).m2 := by
    intro i hi h0 h1
    have h := mass_add h0 (show 0 ≤ (ds (i + 1)).m2 by rw [hs _ hi]; positivity) h1 (he _ hi)
    rw [hs _ hi, Real.sqrt_sq (hm _ hi)] at h
    exact h
  intro i
  induction i with
  | zero =>
    intro hn
    have h0 : 0 ≤ (total ds 0).m2 := by
      show 0 ≤ (ds 0).m2
      rw [hs 0 hn]; positivity
    exact ⟨h0, he 0 hn, fun h => key 0 h h0 (he 0 hn)⟩
  | succ i ih =>
    intro hi
    obtain ⟨h0, h1, h2⟩ := ih (by omega)
    have ht : 0 ≤ (total ds (i + 1)).t := add_nonneg h1 (he _ hi)
    have hm2 : 0 ≤ (total ds (i + 1)).m2 := by
      show 0 ≤ (total ds i + ds (i + 1)).m2
      rw [m2_add, hs _ hi]
      have hP := (abs_le_of_sq_le_sq' (by rw [P_sq]; linarith) h1 : -(total ds i).t ≤ (total ds i).P ∧ _).2
      have hQ : (ds (i + 1)).P ≤ (ds (i + 1)).t :=
        (abs_le_of_sq_le_sq' (by rw [P_sq, hs _ hi]; nlinarith [sq_nonneg (m (i + 1))]) (he _ hi)).2
      have hcs : (total ds i).x * (ds (i + 1)).x + (total ds i).y * (ds (i + 1)).y
          + (total ds i).z * (ds (i + 1)).z ≤ (total ds i).P * (ds (i + 1)).P := by
        refine (abs_le_of_sq_le_sq' ?_ (mul_nonneg (P_nonneg _) (P_nonneg _))).2
        rw [mul_pow, P_sq, P_sq]
        unfold LV.m2
        nlinarith [sq_nonneg ((total ds i).x * (ds (i + 1)).y - (total ds i).y * (ds (i + 1)).x),
          sq_nonneg ((total ds i).x * (ds (i + 1)).z - (total ds i).z * (ds (i + 1)).x),
          sq_nonneg ((total ds i).y * (ds (i + 1)).z - (total ds i).z * (ds (i + 1)).y)]
      have hmd : 0 ≤ mdot (total ds i) (ds (i + 1)) := by
        have := mul_le_mul hP hQ (P_nonneg _) h1
        unfold mdot
        linarith
      nlinarith [sq_nonneg (m (i + 1))]
    exact ⟨hm2, ht, fun h => key (i + 1) h hm2 ht⟩

/-- the loop reproduces a decay -/
theorem blockLoop_complete (g : PS) (ds0 : ℕ → LV)
    (hstep : ∀ i, i + 1 < g.n → (LV.mk
      (g.q (i + 1) * Real.sqrt (1 - g.cosTheta (i + 1) * g.cosTheta (i + 1)) * Real.cos (g.phi (i + 1)))
      (g.q (i + 1) * Real.sqrt (1 - g.cosTheta (i + 1) * g.cosTheta (i + 1)) * Real.sin (g.phi (i + 1)))
      (g.q (i + 1) * g.cosTheta (i + 1))
      (Real.sqrt (g.m (i + 1) * g.m (i + 1) + g.q (i + 1) * g.q (i + 1)))).boost (total ds0 (i + 1)).boostVector
        = ds0 (i + 1)) :
    ∀ (i : ℕ) (ds : ℕ → LV), i < g.n → ∀ j ≤ i, g.blockLoop i (total ds0 i) ds j = ds0 j := by
  intro i
  induction i with
  | zero =>
    intro ds _ j hj
    obtain rfl : j = 0 := by omega
    exact Function.update_self _ _ _
  | succ i ih =>
    intro ds hi j hj
    have hs := hstep i hi
    unfold PS.blockLoop
    dsimp only
    rw [hs]
    have e : total ds0 (i + 1) - ds0 (i + 1) = total ds0 i := by
      show total ds0 i + ds0 (i + 1) - ds0 (i + 1) = _
      ext <;> simp
    rw [e]
    by_cases hji : j = i + 1
    · subst hji
      rw [blockLoop_frame _ _ _ _ _ (Nat.lt_succ_self i), Function.update_self]
    · exact ih _ (by omega) j (by omega)

/-- **C51, completeness.** Every possible decay of the n-body system (all subsystems with at least two
particles having mass) is generated for its masses of the subsystems, which are possible, and some angles. -/
theorem kinematics_complete (g : PS) (hn : 2 ≤ g.n) (hk : g.kinType = .block) (hm : ∀ i < g.n, 0 ≤ g.m i)
    (nBody : LV) (ds : ℕ → LV) (hd : IsDecay g.n g.m nBody ds)
    (hpos : ∀ i, i + 1 < g.n → 0 < (total ds (i + 1)).m2) :
    ∃ M c p g', ValidMasses g.n g.m M ∧ SubMasses g.n M ds ∧ (∀ i, i + 1 < g.n → c (i + 1) ^ 2 ≤ 1) ∧
      ({ g with M := M, cosTheta := c, phi := p } : PS).calcBreakupMomenta = some g' ∧
      ∀ i < g.n, (g'.calcEventKinematics nBody).daughters i = ds i := by
  have hp := total_props hd.onShell hm hd.energy
  obtain ⟨M, hMd⟩ : ∃ M : ℕ → ℝ, M = fun i => Real.sqrt (total ds i).m2 := ⟨_, rfl⟩
  have hM2 : ∀ i < g.n, (total ds i).m2 = M i ^ 2 := by
    intro i hi
    rw [hMd]
    exact (Real.sq_sqrt (hp i hi).1).symm
  have hv : ValidMasses g.n g.m M := by
    refine ⟨hm, ?_, fun i hi => ?_, fun i hi => ?_⟩
    · rw [hMd]
      show Real.sqrt (ds 0).m2 = g.m 0
      rw [hd.onShell 0 (by omega), Real.sqrt_sq (hm 0 (by omega))]
    · rw [hMd]
      exact (hp i (by omega)).2.2 hi
    · rw [hMd]
      exact Real.sqrt_pos.mpr (hpos i hi)
  obtain ⟨q, e, hq, hb⟩ := calcBreakupMomenta_spec { g with M := M } hv (by show 1 ≤ g.n; omega)
  have hang : ∀ i, ∃ c phi, i + 1 < g.n → c ^ 2 ≤ 1 ∧ (LV.mk (q (i + 1) * Real.sqrt (1 - c * c) * Real.cos phi)
      (q (i + 1) * Real.sqrt (1 - c * c) * Real.sin phi) (q (i + 1) * c)
      (Real.sqrt (g.m (i + 1) * g.m (i + 1) + q (i + 1) * q (i + 1)))).boost (total ds (i + 1)).boostVector
        = ds (i + 1) := by
    intro i
    by_cases hi : i + 1 < g.n
    · obtain ⟨v, ev, h0, _, _, h2, _⟩ := breakup_spec (hv.pos i hi) (valid_nonneg hv i (by omega))
        (hm (i + 1) hi) (hv.step i hi)
      have : v = q (i + 1) := by
        have h := (hb i hi).symm.trans ev
        exact (Option.some.inj h).symm
      subst this
      have esub : total ds (i + 1) - ds (i + 1) = total ds i := by
        show total ds i + ds (i + 1) - ds (i + 1) = _
        ext <;> simp
      obtain ⟨c, phi, hc, h⟩ := twoBody_decay (hv.pos i hi) (hM2 _ hi)
        (energy_pos (hpos i hi) (hp _ hi).2.1) (by rw [esub]; exact hM2 i (by omega)) (hd.onShell _ hi) h0 h2
      exact ⟨c, phi, fun _ => ⟨hc, h⟩⟩
    · exact ⟨0, 0, fun h => absurd h hi⟩
  choose c phi hcp using hang
  refine ⟨M, fun i => c (i - 1), fun i => phi (i - 1), { g with M := M, cosTheta := (fun i => c (i - 1)), phi := (fun i => phi (i - 1)), q := q }, hv, hM2, ?_, ?_, ?_⟩
  · intro i hi
    exact (hcp i hi).1
  · obtain ⟨q', e', _, hb'⟩ := breakupLoop_spec { g with M := M } hv (g.n - 1) (by show g.n - 1 < g.n; omega)
    have hbl : ∀ k, PS.breakupLoop { g with M := M, cosTheta := (fun i => c (i - 1)), phi := (fun i => phi (i - 1)) } k
        = PS.breakupLoop { g with M := M } k := by
      intro k
      induction k with
      | zero => rfl
      | succ k ih =>
        unfold PS.breakupLoop
        rw [ih]
    unfold PS.calcBreakupMomenta at e ⊢
    rw [hbl]
    dsimp only at e ⊢
    rw [e'] at e ⊢
    have : q' = q := congrArg PS.q (Option.some.inj e)
    rw [this]
    rfl
  · intro i hi
    unfold PS.calcEventKinematics
    dsimp only
    rw [hk]
    dsimp only
    rw [← hd.conserved]
    exact blockLoop_complete { g with kinType := .block, M := M, cosTheta := (fun i => c (i - 1)), phi := (fun i => phi (i - 1)), q := q }
      ds (fun i hi => (hcp i hi).2) (g.n - 1) _ (by show g.n - 1 < g.n; omega) i (by omega)

/-! ## a concrete case -/

/-- three particles of mass 1 -/
noncomputable def exGen : PS := (PS.new.setDecay [1, 1, 1]).1

/-- all random numbers in the middle -/
noncomputable def exRnd : PS.Randoms where
  draws := fun _ => ⟨1 / 2, 1 / 2, 1 / 2⟩
  r := [1 / 2]
  u := fun _ => 1 / 2
  v := fun _ => 1 / 2
  accept := 1 / 2

theorem exGen_configured : Configured exGen ∧ exGen.n = 3 ∧ (∀ i < 3, exGen.m i = 1) ∧
    exGen.mSum (exGen.n - 1) = 3 := by
  obtain ⟨h1, _, h3, h4⟩ := setDecay_configured PS.new [1, 1, 1] (by norm_num)
    (fun x hx => by simp at hx; rw [hx]; norm_num)
  have h5 : ∀ i < 3, exGen.m i = 1 := by
    intro i hi
    show (PS.new.setDecay [1, 1, 1]).1.m i = 1
    rw [h4]
    interval_cases i <;> rfl
  refine ⟨h1, h3, h5, ?_⟩
  rw [show exGen.mSum = PS.sums exGen.m from h1.sums, show exGen.n = 3 from h3]
  show exGen.m 0 + exGen.m 1 + exGen.m 2 = 3
  rw [h5 0 (by norm_num), h5 1 (by norm_num), h5 2 (by norm_num)]
  norm_num

theorem exRnd_ok : Rnd 3 exRnd := by
  refine ⟨fun i => ?_, rfl, fun x hx => ?_, fun i => ?_⟩
  · show (0 : ℝ) < 1 / 2 ∧ (1 / 2 : ℝ) < 1 ∧ (0 : ℝ) < 1 / 2 ∧ (1 / 2 : ℝ) < 1
    norm_num
  · have : x = 1 / 2 := by simpa [exRnd] using hx
    rw [this]; norm_num
  · show (0 : ℝ) < 1 / 2 ∧ (1 / 2 : ℝ) < 1
    norm_num

/-- the hypotheses of `generateDecay_spec` are met by a moving system of mass 4, and the generated decay
meets those of `kinematics_complete` -/
example : ∃ g' w, exGen.generateDecay ⟨0, 0, 3, 5⟩ exRnd = some (g', w) ∧
    IsDecay 3 exGen.m ⟨0, 0, 3, 5⟩ g'.daughters ∧
    ∀ i, i + 1 < 3 → 0 < (total g'.daughters (i + 1)).m2 := by
  obtain ⟨hc, hn, h1, hs⟩ := exGen_configured
  have hm : Real.sqrt (LV.mk 0 0 3 5).m2 = 4 := by
    rw [show (LV.mk 0 0 3 5).m2 = 4 ^ 2 by unfold LV.m2; norm_num]
    exact Real.sqrt_sq (by norm_num)
  obtain ⟨g', w, e, h2, h3, h4, h5, h6, _⟩ := generateDecay_spec exGen hc ⟨0, 0, 3, 5⟩ (by norm_num)
    (by unfold LV.m2; norm_num) (by rw [hm, hs]; norm_num) (by rw [h1 0, h1 1] <;> norm_num)
    (rnd := exRnd) (by rw [hn]; exact exRnd_ok)
  rw [hn] at h2
  refine ⟨g', w, e, h2, fun i hi => ?_⟩
  have hp := total_props (m := exGen.m) (n := 3) h2.onShell (fun i hi => by rw [h1 i hi]; norm_num) h2.energy i (by omega)
  have h7 := hp.2.2 hi
  rw [h1 _ hi] at h7
  have := Real.sqrt_nonneg (total g'.daughters i).m2
  exact Real.sqrt_pos.mp (by linarith)

end Rpwa.Gen

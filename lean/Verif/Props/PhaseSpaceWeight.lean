import Verif.Props.PhaseSpacePick
import Mathlib.Tactic.Positivity

/-!
# C51, C52: weights of phase-space events
-/

namespace Rpwa.Gen

open Spec

theorem breakup_isSome {M m1 m2 : ℝ} (h : m1 + m2 ≤ M) :
    ∃ q, Phys.breakupMomentum M m1 m2 = some q ∧ 0 ≤ q := by
  unfold Phys.breakupMomentum Phys.breakupMomentumSquared
  dsimp only
  rw [if_neg (fun hc => absurd hc.2 (not_lt.mpr h))]
  split
  · exact ⟨_, rfl, Real.sqrt_nonneg _⟩
  · exact ⟨_, rfl, Real.sqrt_nonneg _⟩

/-- closed form of the breakup momentum -/
theorem breakup_closed {M m1 m2 q : ℝ} (hM : 0 < M) (h1 : 0 ≤ m1) (h2 : 0 ≤ m2) (h : m1 + m2 ≤ M)
    (e : Phys.breakupMomentum M m1 m2 = some q) :
    0 ≤ q ∧ 4 * M ^ 2 * q ^ 2 = (M ^ 2 - (m1 + m2) ^ 2) * (M ^ 2 - (m1 - m2) ^ 2) := by
  obtain ⟨q', e', h0, hq, _⟩ := breakup_spec hM h1 h2 h
  rw [e] at e'
  cases e'
  refine ⟨h0, ?_⟩
  rw [hq]
  field_simp
  ring

/-- two-body phase space is breakup momentum over `4 pi M` -/
theorem twoBody_eq {M m1 m2 q : ℝ} (hM : 0 < M) (h1 : 0 ≤ m1) (h2 : 0 ≤ m2) (h : m1 + m2 ≤ M)
    (e : Phys.breakupMomentum M m1 m2 = some q) : twoBody M m1 m2 = q / (4 * Real.pi * M) := by
  obtain ⟨h0, hq⟩ := breakup_closed hM h1 h2 h e
  unfold twoBody
  rw [← hq, show 4 * M ^ 2 * q ^ 2 = (2 * M * q) ^ 2 by ring, Real.sqrt_sq (by positivity)]
  have := Real.pi_ne_zero
  field_simp
  ring

/-! ## `calcWeight` always succeeds for possible masses -/

theorem top_ge {g : PS} (hg : g.mSum = PS.sums g.m) (hv : ValidMasses g.n g.m g.M) :
    ∀ i < g.n, g.mSum i ≤ g.M i ∧ g.M i ≤ g.M (g.n - 1) - g.mSum (g.n - 1) + g.mSum i := by
  intro i hi
  constructor
  · induction i with
    | zero => rw [hg, hv.first]; exact le_refl _
    | succ i ih =>
      have h1 := ih (by omega)
      have h2 := hv.step i hi
      have h3 : g.mSum (i + 1) = g.mSum i + g.m (i + 1) := by rw [hg]; rfl
      linarith
  · obtain ⟨k, hk⟩ : ∃ k, i + k = g.n - 1 := ⟨g.n - 1 - i, by omega⟩
    induction k generalizing i with
    | zero =>
      obtain rfl : i = g.n - 1 := by omega
      linarith
    | succ k ih =>
      have h1 := ih (i + 1) (by omega) (by omega)
      have h2 := hv.step i (by omega)
      have h3 : g.mSum (i + 1) = g.mSum i + g.m (i + 1) := by rw [hg]; rfl
      linarith

theorem genbodLoop_spec (g : PS) (hg : g.mSum = PS.sums g.m) (hv : ValidMasses g.n g.m g.M) (q : ℕ → ℝ)
    (hq : ∀ i, i + 1 < g.n → Phys.breakupMomentum (g.M (i + 1)) (g.M i) (g.m (i + 1)) = some (q (i + 1))) :
    ∀ k, k < g.n → ∃ p, g.genbodLoop k = some (g.M (g.n - 1) - g.mSum (g.n - 1) + g.mSum k, p) ∧
      0 ≤ PS.momProd q k ∧ PS.momProd q k ≤ p := by
  intro k
  induction k with
  | zero =>
    intro _
    refine ⟨1, ?_, zero_le_one, le_refl _⟩
    unfold PS.genbodLoop
    rw [show g.mSum 0 = g.m 0 by rw [hg]; rfl]
  | succ k ih =>
    intro hk
    obtain ⟨p, e, h0, hp⟩ := ih (by omega)
    have h3 : g.mSum (k + 1) = g.mSum k + g.m (k + 1) := by rw [hg]; rfl
    obtain ⟨t1, t2⟩ := top_ge hg hv (k + 1) hk
    obtain ⟨s1, s2⟩ := top_ge hg hv k (by omega)
    have hM := hv.pos k hk
    have hm := hv.nonneg (k + 1) hk
    have hS0 : 0 ≤ g.mSum k := by rw [hg]; exact sums_nonneg hv.nonneg k (by omega)
    have hst := hv.step k hk
    have hMk := valid_nonneg hv k (by omega)
    obtain ⟨v, ev, v0⟩ := breakup_isSome (M := g.M (g.n - 1) - g.mSum (g.n - 1) + g.mSum (k + 1))
      (m1 := g.mSum k) (m2 := g.m (k + 1)) (by linarith)
    have hmm : 0 < g.M (g.n - 1) - g.mSum (g.n - 1) + g.mSum (k + 1) := by linarith
    obtain ⟨_, cv⟩ := breakup_closed hmm hS0 hm (by linarith) ev
    obtain ⟨q0, cq⟩ := breakup_closed hM hMk hm hst (hq k hk)
    have hle : q (k + 1) ≤ v := by
      refine (abs_le_of_sq_le_sq' ?_ v0).2
      -- A: lower the mass of the subsystem; B: raise the mass of the mother
      generalize g.M (g.n - 1) - g.mSum (g.n - 1) + g.mSum (k + 1) = A at *
      generalize g.M (k + 1) = B at *
      generalize g.M k = a at *
      generalize g.mSum k = s at *
      generalize g.m (k + 1) = b at *
      generalize q (k + 1) = x at *
      have hs2 : s ^ 2 ≤ a ^ 2 := pow_le_pow_left₀ hS0 s1 2
      have hab : (a + b) ^ 2 ≤ B ^ 2 := pow_le_pow_left₀ (by linarith) hst 2
      have hBA : B ^ 2 ≤ A ^ 2 := pow_le_pow_left₀ hM.le t2 2
      -- mother B, daughter s
      have c1 : 4 * B ^ 2 * x ^ 2 ≤ (B ^ 2 - (s + b) ^ 2) * (B ^ 2 - (s - b) ^ 2) := by
        rw [cq]
        have : (B ^ 2 - (s + b) ^ 2) * (B ^ 2 - (s - b) ^ 2) - (B ^ 2 - (a + b) ^ 2) * (B ^ 2 - (a - b) ^ 2)
            = (a ^ 2 - s ^ 2) * (2 * (B ^ 2 + b ^ 2) - s ^ 2 - a ^ 2) := by ring
        have h5 : 0 ≤ (a ^ 2 - s ^ 2) * (2 * (B ^ 2 + b ^ 2) - s ^ 2 - a ^ 2) := by
          refine mul_nonneg (by linarith) ?_
          nlinarith [mul_nonneg hMk hm, sq_nonneg b]
        linarith
      -- mother A, daughter s
      have c2 : A ^ 2 * ((B ^ 2 - (s + b) ^ 2) * (B ^ 2 - (s - b) ^ 2))
          ≤ B ^ 2 * ((A ^ 2 - (s + b) ^ 2) * (A ^ 2 - (s - b) ^ 2)) := by
        have : B ^ 2 * ((A ^ 2 - (s + b) ^ 2) * (A ^ 2 - (s - b) ^ 2))
            - A ^ 2 * ((B ^ 2 - (s + b) ^ 2) * (B ^ 2 - (s - b) ^ 2))
            = (A ^ 2 - B ^ 2) * (A ^ 2 * B ^ 2 - (s ^ 2 - b ^ 2) ^ 2) := by ring
        have h5 : 0 ≤ (A ^ 2 - B ^ 2) * (A ^ 2 * B ^ 2 - (s ^ 2 - b ^ 2) ^ 2) := by
          refine mul_nonneg (by linarith) ?_
          have h6 : (s ^ 2 - b ^ 2) ^ 2 ≤ (B ^ 2) ^ 2 := by
            refine sq_le_sq' ?_ ?_
            · nlinarith [mul_nonneg hMk hm, sq_nonneg a, sq_nonneg s]
            · nlinarith [mul_nonneg hMk hm, sq_nonneg b]
          nlinarith [mul_le_mul_of_nonneg_right hBA (sq_nonneg B)]
        linarith
      have hB2 : 0 < B ^ 2 := by positivity
      have hA2 : 0 < A ^ 2 := by linarith
      have : A ^ 2 * B ^ 2 * x ^ 2 ≤ A ^ 2 * B ^ 2 * v ^ 2 := by
        nlinarith [mul_le_mul_of_nonneg_left c1 hA2.le]
      exact le_of_mul_le_mul_left this (mul_pos hA2 hB2)
    refine ⟨p * v, ?_, ?_, ?_⟩
    · unfold PS.genbodLoop
      rw [e]
      have e2 : g.M (g.n - 1) - g.mSum (g.n - 1) + g.mSum k + g.m (k + 1)
          = g.M (g.n - 1) - g.mSum (g.n - 1) + g.mSum (k + 1) := by rw [h3]; ring
      show ((Phys.breakupMomentum (g.M (g.n - 1) - g.mSum (g.n - 1) + g.mSum k + g.m (k + 1)) (g.mSum k)
        (g.m (k + 1))).bind fun v => some (g.M (g.n - 1) - g.mSum (g.n - 1) + g.mSum k + g.m (k + 1), p * v)) = _
      rw [e2, ev]
      rfl
    · exact mul_nonneg h0 q0
    · exact mul_le_mul hp hle q0 (h0.trans hp)

/-- weight as a function of masses and breakup momenta -/
noncomputable def weightOf (g : PS) (q : ℕ → ℝ) : ℝ :=
  match g.weightType with
  | .chung => g.norm * (g.M (g.n - 1) - g.mSum (g.n - 1)) ^ ((g.n : ℤ) - 2) * PS.momProd q (g.n - 1)
      / g.M (g.n - 1)
  | .nuphaz => PS.nuphazLoop g (g.n - 1) 1 * (g.norm * g.M (g.n - 1) ^ (2 * (g.n : ℤ) - 4)
        * PS.F (g.m 1 * g.m 1 / (g.M 1 * g.M 1)) (g.m 0 * g.m 0 / (g.M 1 * g.M 1)))
  | .genbod => PS.momProd q (g.n - 1) / ((g.genbodLoop (g.n - 1)).map Prod.snd).getD 0
  | .flat => 1

theorem nuphazLoop_q (g : PS) (q : ℕ → ℝ) (t : WeightType) : ∀ (k : ℕ) (w : ℝ),
    PS.nuphazLoop { g with weightType := t, q := q } k w = PS.nuphazLoop g k w
  | 0, _ => rfl
  | 1, _ => rfl
  | i + 2, w => nuphazLoop_q g q t (i + 1) _

theorem genbodLoop_q (g : PS) (q : ℕ → ℝ) (t : WeightType) : ∀ k : ℕ,
    PS.genbodLoop { g with weightType := t, q := q } k = PS.genbodLoop g k
  | 0 => rfl
  | i + 1 => by
    unfold PS.genbodLoop
    rw [genbodLoop_q g q t i]

/-- `calcWeight` for possible masses -/
theorem calcWeight_eq (g : PS) (hn : 2 ≤ g.n) (hs : g.mSum = PS.sums g.m)
    (hv : ValidMasses g.n g.m g.M) :
    ∃ q, g.calcWeight = some { g with
        q := q, weight := weightOf g q, maxObserved := max g.maxObserved (weightOf g q) } ∧
      Momenta g.n g.m g.M q ∧
      ∀ i, i + 1 < g.n → Phys.breakupMomentum (g.M (i + 1)) (g.M i) (g.m (i + 1)) = some (q (i + 1)) := by
  obtain ⟨q, e, hq, hb⟩ := calcBreakupMomenta_spec g hv (by omega)
  refine ⟨q, ?_, hq, hb⟩
  have hmax : ∀ w : ℝ, (if w > g.maxObserved then w else g.maxObserved) = max g.maxObserved w := by
    intro w
    by_cases h : w > g.maxObserved
    · rw [if_pos h, max_eq_right h.le]
    · rw [if_neg h, max_eq_left (not_lt.mp h)]
  unfold PS.calcWeight
  rw [e]
  change (Option.bind (some _) _) = _
  rw [Option.bind_some]
  dsimp only
  unfold weightOf
  cases hw : g.weightType with
  | chung =>
    dsimp only
    change (Option.bind (some _) _) = _
    rw [Option.bind_some, hmax]
  | nuphaz =>
    dsimp only
    change (Option.bind (some _) _) = _
    rw [Option.bind_some, hmax, nuphazLoop_q g q .nuphaz]
  | genbod =>
    dsimp only
    obtain ⟨p, ep, _⟩ := genbodLoop_spec g hs hv q hb (g.n - 1) (by omega)
    rw [genbodLoop_q g q .genbod, ep]
    change (Option.bind (some _) _) = _
    rw [Option.bind_some, hmax]
    rfl
  | flat =>
    dsimp only
    change (Option.bind (some _) _) = _
    rw [Option.bind_some, hmax]

/-! ## generated events -/

/-- **C51, events.** For every configured generator (whatever its weight type and kinematics), every
n-body system above threshold and all random numbers: `generateDecay` produces an event with conserved
energy and momentum and particles of the right masses, and the generator stays configured. -/
theorem generateDecay_spec (g : PS) (hg : Configured g) (nBody : LV) (hE : 0 ≤ nBody.t)
    (hm : 0 < nBody.m2) (hthr : g.mSum (g.n - 1) ≤ Real.sqrt nBody.m2)
    (hp : 0 < g.m 0 + g.m 1 ∨ g.mSum (g.n - 1) < Real.sqrt nBody.m2) {rnd : PS.Randoms}
    (hr : Rnd g.n rnd) :
    ∃ g' w, g.generateDecay nBody rnd = some (g', w) ∧ IsDecay g.n g.m nBody g'.daughters ∧
      SubMasses g.n g'.M g'.daughters ∧ Configured g' ∧ g'.n = g.n ∧ g'.m = g.m ∧ w = g'.weight := by
  have hn := hg.two
  obtain ⟨M, e, hv, hW⟩ := pickMasses_valid g hg hthr hp hr
  obtain ⟨q, e2, hq, _⟩ := calcWeight_eq { g with M := M } hn hg.sums hv
  have hk := calcEventKinematics_spec (({ g with
      M := M, q := q, weight := weightOf { g with M := M } q
      maxObserved := max g.maxObserved (weightOf { g with M := M } q) } : PS).pickAngles rnd.u rnd.v)
    nBody hv hq hn (fun i hi => by
      unfold PS.pickAngles
      dsimp only
      have hi' : 1 ≤ i + 1 ∧ i + 1 < g.n := ⟨by omega, hi⟩
      rw [if_pos hi']
      obtain ⟨u0, u1⟩ := hr.u (i + 1)
      nlinarith) (by
      show nBody.m2 = M (g.n - 1) ^ 2
      rw [hW, Real.sq_sqrt hm.le]) hE
  refine ⟨_, _, ?_, hk.1, ?_, ?_, ?_, ?_, rfl⟩
  · unfold PS.generateDecay
    dsimp only
    rw [if_neg (by omega), if_neg (not_lt.mpr hthr), e, e2]
    rfl
  · have : ∀ (g : PS), (g.calcEventKinematics nBody).M = g.M := by
      intro g; unfold PS.calcEventKinematics; cases g.kinType <;> rfl
    rw [this]
    exact hk.2
  · have : ∀ (g : PS), Configured g → Configured (g.calcEventKinematics nBody) := by
      intro g h
      unfold PS.calcEventKinematics
      cases g.kinType <;> exact ⟨h.two, h.nonneg, h.sums, h.first⟩
    exact this _ ⟨hn, hg.nonneg, hg.sums, hv.first⟩
  · unfold PS.calcEventKinematics
    dsimp only [PS.pickAngles]
    cases g.kinType <;> rfl
  · unfold PS.calcEventKinematics
    dsimp only [PS.pickAngles]
    cases g.kinType <;> rfl

/-- below threshold and with fewer than two daughters nothing is generated, the weight is zero -/
theorem generateDecay_below (g : PS) (nBody : LV) (rnd : PS.Randoms)
    (h : g.n < 2 ∨ Real.sqrt nBody.m2 < g.mSum (g.n - 1)) : g.generateDecay nBody rnd = some (g, 0) := by
  unfold PS.generateDecay
  dsimp only
  rcases h with h | h
  · rw [if_pos h]
  · by_cases h2 : g.n < 2
    · rw [if_pos h2]
    · rw [if_neg h2, if_pos h]

end Rpwa.Gen

import Verif.Spec.ResonanceShapes
import Verif.Model.ResonanceShapes
import Verif.Props.PhysUtils
import Mathlib.Tactic.Linarith
import Mathlib.Tactic.FieldSimp

/-!
# C72: dynamic amplitudes of the components of a resonance fit
-/

namespace Rpwa.ResFit

open Spec Phys.Spec

/-! ## kinematics -/

theorem brkO_ok {M m1 m2 q : ℝ} (h1 : 0 ≤ m1) (h2 : 0 ≤ m2) (hM : 0 < M) (d : Decays M m1 m2 q) :
    brkO M m1 m2 = .ok q := by
  unfold brkO
  rw [(Phys.breakupMomentum_iff hM h1 h2).mpr d]

theorem decays_le {M m1 m2 q : ℝ} (d : Decays M m1 m2 q) : m1 + m2 ≤ M := by
  obtain ⟨_, e⟩ := d
  rw [← e]
  exact add_le_add (Real.le_sqrt_of_sq_le (by nlinarith only [sq_nonneg q]))
    (Real.le_sqrt_of_sq_le (by nlinarith only [sq_nonneg q]))

theorem decays_exists {M m1 m2 : ℝ} (h1 : 0 ≤ m1) (h2 : 0 ≤ m2) (hM : 0 < M) (h : m1 + m2 ≤ M) :
    ∃ q, Decays M m1 m2 q := by
  obtain ⟨q, e, _⟩ := Gen.breakup_isSome h
  exact ⟨q, (Phys.breakupMomentum_iff hM h1 h2).mp e⟩

theorem decays_pos {M m1 m2 q : ℝ} (h1 : 0 ≤ m1) (h2 : 0 ≤ m2) (d : Decays M m1 m2 q)
    (h : m1 + m2 < M) : 0 < q := by
  obtain ⟨h0, e⟩ := d
  rcases h0.lt_or_eq with hl | rfl
  · exact hl
  · rw [zero_pow two_ne_zero, add_zero, add_zero, Real.sqrt_sq h1, Real.sqrt_sq h2] at e
    linarith only [h, e]

theorem decays_mono {M M' m1 m2 q q' : ℝ} (d : Decays M m1 m2 q) (d' : Decays M' m1 m2 q')
    (h : M ≤ M') : q ≤ q' := by
  obtain ⟨h0, e⟩ := d
  obtain ⟨h0', e'⟩ := d'
  by_contra hc
  have hc := not_le.mp hc
  have h2 : q' ^ 2 < q ^ 2 := by nlinarith only [h0, h0', hc]
  have a1 := Real.sqrt_lt_sqrt (x := m1 ^ 2 + q' ^ 2) (y := m1 ^ 2 + q ^ 2) (by positivity) (by linarith only [h2])
  have a2 := Real.sqrt_lt_sqrt (x := m2 ^ 2 + q' ^ 2) (y := m2 ^ 2 + q ^ 2) (by positivity) (by linarith only [h2])
  linarith only [a1, a2, e, e', h]

/-! ## barrier factors -/

theorem barrier_pos {n : ℕ} (hn : n ≤ 7) {q : ℝ} (hq : 0 < q) :
    0 < Phys.barrierFactorSquared (2 * (n : ℤ)) q := by
  rcases Nat.eq_zero_or_pos n with rfl | h
  · unfold Phys.barrierFactorSquared Phys.barrierFactorSquaredZ
    simp
  · obtain ⟨a, b, _⟩ := Phys.barrierFactorSquared_mono h hn (Pr := 0.1973) (by norm_num) le_rfl hq
    exact a.trans_lt b

theorem barrier_nonneg {n : ℕ} (hn : n ≤ 7) {q : ℝ} (hq : 0 ≤ q) :
    0 ≤ Phys.barrierFactorSquared (2 * (n : ℤ)) q := by
  rcases Nat.eq_zero_or_pos n with rfl | h
  · unfold Phys.barrierFactorSquared Phys.barrierFactorSquaredZ
    simp
  · exact (Phys.barrierFactorSquared_mono h hn (Pr := 0.1973) (by norm_num) hq
      (show q < q + 1 by linarith only)).1

theorem barrier_mono {n : ℕ} (hn : n ≤ 7) {q q' : ℝ} (hq : 0 ≤ q) (h : q ≤ q') :
    Phys.barrierFactorSquared (2 * (n : ℤ)) q ≤ Phys.barrierFactorSquared (2 * (n : ℤ)) q' := by
  rcases h.lt_or_eq with h | rfl
  · rcases Nat.eq_zero_or_pos n with rfl | h1
    · unfold Phys.barrierFactorSquared Phys.barrierFactorSquaredZ
      simp
    · exact (Phys.barrierFactorSquared_mono h1 hn (Pr := 0.1973) (by norm_num) hq h).2.1.le
  · exact le_rfl

theorem barrier_div {n : ℕ} (hn : n ≤ 7) {q q0 : ℝ} (hq : 0 < q0) :
    Phys.barrierFactorSquared (2 * (n : ℤ)) q / Phys.barrierFactorSquared (2 * (n : ℤ)) q0
      = penetrability n (q / 0.1973) / penetrability n (q0 / 0.1973) := by
  have h := barrier_pos hn hq
  have e0 := Phys.barrierFactorSquared_spec hn (q := q0) (Pr := 0.1973) (by norm_num)
  have e := Phys.barrierFactorSquared_spec hn (q := q) (Pr := 0.1973) (by norm_num)
  rw [e0] at h
  have h1 : penetrability n 1 ≠ 0 := by
    intro hc
    rw [hc, div_zero] at h
    exact lt_irrefl _ h
  rw [e0, e, div_div_div_cancel_right₀ h1]

/-! ## lists of decay modes -/

/-- the arguments of the constructor for a list of decay modes -/
def modesCfg (modes : List Mode) : ShapeCfg :=
  .dynamicWidth (modes.map Mode.ratio) (modes.map fun c => (c.L : ℤ)) (modes.map Mode.m1)
    (modes.map Mode.m2)

theorem foldl_add_acc (l : List ℝ) (a : ℝ) : l.foldl (· + ·) a = a + l.sum := by
  induction l generalizing a with
  | nil => simp
  | cons x l ih => rw [List.foldl_cons, ih, List.sum_cons, add_assoc]

theorem normRatios_ok {ratio r : List ℝ} (h : normRatios ratio = .ok r) :
    (ratio ≠ [] → ratio.sum ≠ 0) ∧ r = ratio.map fun v => v / ratio.sum := by
  unfold normRatios at h
  dsimp only at h
  rw [foldl_add_acc, zero_add] at h
  by_cases hc : ratio.sum = 0 ∧ ratio ≠ []
  · rw [if_pos hc] at h; cases h
  · rw [if_neg hc] at h
    cases h
    exact ⟨fun hn he => hc ⟨he, hn⟩, rfl⟩

/-- what the constructor stores -/
theorem build_modes {I : Input} {chs : List Channel} {modes : List Mode} {s : Shape}
    (h : (modesCfg modes).build I chs = .ok s) :
    chs.length ≤ modes.length ∧ (modes ≠ [] → (modes.map Mode.ratio).sum ≠ 0) ∧
    s = .dynamicWidth (modes.map fun c =>
      (c.ratio / (modes.map Mode.ratio).sum, (c.L : ℤ), c.m1, c.m2)) := by
  unfold modesCfg ShapeCfg.build at h
  dsimp only at h
  by_cases h1 : (modes.map Mode.ratio).length < chs.length
  · rw [if_pos h1] at h; cases h
  rw [if_neg h1, if_neg (by simp)] at h
  cases e : normRatios (modes.map Mode.ratio) with
  | ok r =>
    rw [e, Outcome.ok_bind] at h
    obtain ⟨a, b⟩ := normRatios_ok e
    cases h
    refine ⟨by simpa using h1, fun hn => a (by simpa using hn), ?_⟩
    rw [b, List.map_map, List.zip_map', List.zip_map', List.zip_map']
    rfl
  | terminate => rw [e] at h; cases h
  | ub => rw [e] at h; cases h

/-! ## the mass-dependent width -/

/-- one channel adds its part to the width -/
theorem dynStep_ok {c : Mode} {S m0 m w g : ℝ} (hS : S ≠ 0) (h0 : 0 < m0) (hm : 0 < m)
    (hp : c.ratio ≠ 0 → c.Physical ∧ c.m1 + c.m2 < m0 ∧ c.PhaseSpace m0 m w) :
    dynStep m0 m g (c.ratio / S, (c.L : ℤ), c.m1, c.m2) = .ok (g + c.ratio / S * w) := by
  unfold dynStep
  dsimp only
  by_cases hr : c.ratio = 0
  · rw [if_pos (by rw [hr, zero_div]), hr, zero_div, zero_mul, add_zero]
  obtain ⟨hph, hlt, hw⟩ := hp hr
  rw [if_neg (div_ne_zero hr hS)]
  rcases hw with ⟨hl, rfl⟩ | ⟨q, q0, d, d0, rfl⟩
  · rw [if_neg (not_le.mpr hl), mul_zero, add_zero]
  · rw [if_pos (show m ≥ _ from decays_le d), brkO_ok hph.hm1 hph.hm2 hm d,
      brkO_ok hph.hm1 hph.hm2 h0 d0, Outcome.ok_bind, Outcome.ok_bind]
    have hq0 := decays_pos hph.hm1 hph.hm2 d0 hlt
    unfold divO
    rw [if_neg hq0.ne', Outcome.ok_bind, if_neg (barrier_pos hph.hL hq0).ne', Outcome.ok_bind,
      ← barrier_div hph.hL hq0]
    congr 2
    ring

theorem dynLoop_ok {S m0 m : ℝ} (hS : S ≠ 0) (h0 : 0 < m0) (hm : 0 < m) (w : Mode → ℝ)
    (modes : List Mode)
    (hp : ∀ c ∈ modes, c.ratio ≠ 0 → c.Physical ∧ c.m1 + c.m2 < m0 ∧ c.PhaseSpace m0 m (w c))
    (g : ℝ) :
    (modes.map fun c => (c.ratio / S, (c.L : ℤ), c.m1, c.m2)).foldlM (dynStep m0 m) g
      = Outcome.ok (g + (modes.map fun c => c.ratio / S * w c).sum) := by
  induction modes generalizing g with
  | nil => rw [List.map_nil, List.map_nil, List.sum_nil, add_zero]; rfl
  | cons c l ih =>
    rw [List.map_cons, List.foldlM_cons, dynStep_ok hS h0 hm (hp c List.mem_cons_self),
      Outcome.ok_bind, ih (fun c hc => hp c (List.mem_cons_of_mem _ hc)), List.map_cons,
      List.sum_cons, add_assoc]

theorem bwO_ok {m0 g0 g m : ℝ} (h : m ^ 2 ≠ m0 ^ 2 ∨ g * m0 ≠ 0) :
    bwO m0 g0 g m = .ok (breitWigner m0 g0 g m) := by
  unfold bwO
  have hd : (⟨m0 * m0 - m * m, -(g * m0)⟩ : ℂ) ≠ 0 := by
    intro hc
    have h1 := congrArg Complex.re hc
    have h2 := congrArg Complex.im hc
    simp only [Complex.zero_re, Complex.zero_im] at h1 h2
    rcases h with h | h
    · exact h (by linarith only [h1, sq m, sq m0])
    · exact h (by linarith only [h2])
  dsimp only
  rw [if_neg hd]
  unfold breitWigner
  congr 2
  · rw [Complex.ofReal_mul, mul_comm]
  · apply Complex.ext <;> simp [sq, mul_comm]

theorem map_div_sum (S : ℝ) (l : List Mode) :
    (l.map fun c => c.ratio / S).sum = (l.map Mode.ratio).sum / S := by
  induction l with
  | nil => simp
  | cons c l ih => rw [List.map_cons, List.sum_cons, ih, List.map_cons, List.sum_cons, add_div]

/-- at the nominal mass the phase space is 1 in its own units -/
theorem phaseSpace_at {c : Mode} {m0 w : ℝ} (hph : c.Physical) (hlt : c.m1 + c.m2 < m0)
    (hw : c.PhaseSpace m0 m0 w) : w = 1 := by
  rcases hw with ⟨hl, _⟩ | ⟨q, q0, d, d0, e⟩
  · exact absurd hl (not_lt.mpr hlt.le)
  · rw [e, Phys.decays_unique d d0, div_self (decays_pos hph.hm1 hph.hm2 d0 hlt).ne', one_mul,
      ← barrier_div hph.hL (decays_pos hph.hm1 hph.hm2 d0 hlt),
      div_self (barrier_pos hph.hL (decays_pos hph.hm1 hph.hm2 d0 hlt)).ne']

theorem width_at {m0 : ℝ} (w : Mode → ℝ) (modes : List Mode) (hS : (modes.map Mode.ratio).sum ≠ 0)
    (hp : ∀ c ∈ modes, c.ratio ≠ 0 → c.Physical ∧ c.m1 + c.m2 < m0 ∧ c.PhaseSpace m0 m0 (w c)) :
    (modes.map fun c => c.ratio / (modes.map Mode.ratio).sum * w c).sum = 1 := by
  have : (modes.map fun c => c.ratio / (modes.map Mode.ratio).sum * w c)
      = modes.map fun c => c.ratio / (modes.map Mode.ratio).sum := by
    apply List.map_congr_left
    intro c hc
    by_cases hr : c.ratio = 0
    · rw [hr, zero_div, zero_mul]
    · obtain ⟨a, b, d⟩ := hp c hc hr
      rw [phaseSpace_at a b d, mul_one]
  rw [this, map_div_sum, div_self hS]

/-- **C72**: Breit-Wigner amplitude with mass-dependent width.  `w` is the phase space of the modes in
units of that at the nominal mass (see `Mode.PhaseSpace`); the branching ratios of the configuration
are normalised to their sum. -/
theorem dynamic_spec {I : Input} {chs : List Channel} {modes : List Mode} {s : Shape}
    (hb : (modesCfg modes).build I chs = .ok s) (hne : modes ≠ []) {p : ℕ → ℝ} {m : ℝ} (bin : ℕ)
    (h0 : 0 < p 0) (h1 : 0 < p 1) (hm : 0 < m) (w : Mode → ℝ)
    (hp : ∀ c ∈ modes, c.ratio ≠ 0 → c.Physical ∧ c.m1 + c.m2 < p 0 ∧ c.PhaseSpace (p 0) m (w c)) :
    s.valueO p bin m = .ok (breitWigner (p 0) (p 1)
      (p 1 * (p 0 / m) * (modes.map fun c => c.ratio / (modes.map Mode.ratio).sum * w c).sum) m) := by
  obtain ⟨_, hS, rfl⟩ := build_modes hb
  have hS := hS hne
  unfold Shape.valueO
  dsimp only
  rw [dynLoop_ok hS h0 hm w modes hp, Outcome.ok_bind, zero_add]
  unfold divO
  rw [if_neg hm.ne', Outcome.ok_bind]
  have e : ∀ x, x * (p 1 * p 0 / m) = p 1 * (p 0 / m) * x := fun x => by ring
  rw [e]
  apply bwO_ok
  by_cases hmm : m = p 0
  · right
    have hs := width_at w modes hS (m0 := p 0) (fun c hc hr => by
      have := hp c hc hr; rwa [hmm] at this)
    rw [hs, hmm, div_self h0.ne']
    nlinarith only [h0, h1, mul_pos h0 h1]
  · left
    intro hc
    exact hmm ((sq_eq_sq₀ hm.le h0.le).mp hc)

end Rpwa.ResFit

import Verif.Props.ResonanceShapesMore
import Mathlib.Tactic.NormNum.Ineq

/-!
# C72: agreement with the function of the fit, bounds of the backgrounds, concrete cases
-/

namespace Rpwa.ResFit

open Spec Phys.Spec

/-! ## the value that enters the fit -/

theorem divO_ok {a b x : ℝ} (h : divO a b = .ok x) : b ≠ 0 ∧ x = a / b := by
  unfold divO at h
  by_cases hb : b = 0
  · rw [if_pos hb] at h; cases h
  · rw [if_neg hb] at h; cases h; exact ⟨hb, rfl⟩

theorem brkO_value {M m1 m2 q : ℝ} (h : brkO M m1 m2 = .ok q) : brkMom M m1 m2 = q := by
  unfold brkO at h
  unfold brkMom
  cases e : Phys.breakupMomentum M m1 m2 with
  | none => rw [e] at h; cases h
  | some q' => rw [e] at h; cases h; rfl

theorem bind_ok {α β : Type} {x : Outcome α} {f : α → Outcome β} {b : β} (h : (x >>= f) = .ok b) :
    ∃ a, x = .ok a ∧ f a = .ok b := by
  cases x with
  | ok a => exact ⟨a, rfl, h⟩
  | terminate => cases h
  | ub => cases h

theorem bwO_value {m0 g0 g m : ℝ} {A : ℂ} (h : bwO m0 g0 g m = .ok A) :
    A = ((g0 * m0 : ℝ) : ℂ) / (⟨m0 * m0 - m * m, -(g * m0)⟩ : ℂ) := by
  unfold bwO at h
  dsimp only at h
  by_cases hd : (⟨m0 * m0 - m * m, -(g * m0)⟩ : ℂ) = 0
  · rw [if_pos hd] at h; cases h
  · rw [if_neg hd] at h; cases h; rfl

theorem foldlM_value {α : Type} {f : ℝ → α → Outcome ℝ} {g : ℝ → α → ℝ}
    (hfg : ∀ a x y, f a x = .ok y → g a x = y) (l : List α) {a b : ℝ} (h : l.foldlM f a = .ok b) :
    l.foldl g a = b := by
  induction l generalizing a with
  | nil => cases h; rfl
  | cons x l ih =>
    rw [List.foldlM_cons] at h
    obtain ⟨c, hc, h⟩ := bind_ok h
    rw [List.foldl_cons, hfg a x c hc]
    exact ih h

/-- **C72**: whenever the function returns, the value is the one the chi-square of C42 is built from -/
theorem valueO_value {s : Shape} {p : ℕ → ℝ} {bin : ℕ} {m : ℝ} {A : ℂ} (h : s.valueO p bin m = .ok A) :
    s.value p bin m = A := by
  classical
  cases s with
  | fixedWidth => exact (bwO_value h).symm
  | dynamicWidth chans =>
    unfold Shape.valueO at h
    dsimp only at h
    obtain ⟨g, hg, h⟩ := bind_ok h
    obtain ⟨x, hx, h⟩ := bind_ok h
    obtain ⟨_, rfl⟩ := divO_ok hx
    rw [bwO_value h]
    unfold Shape.value dynamicGamma
    dsimp only
    rw [foldlM_value (f := dynStep (p 0) m) _ chans hg]
    intro a c y hy
    unfold dynStep at hy
    by_cases h1 : c.1 = 0
    · rw [if_pos h1] at hy ⊢; cases hy; rfl
    rw [if_neg h1] at hy ⊢
    by_cases h2 : m ≥ c.2.2.1 + c.2.2.2
    · rw [if_pos h2] at hy ⊢
      obtain ⟨q, hq, hy⟩ := bind_ok hy
      obtain ⟨q0, hq0, hy⟩ := bind_ok hy
      dsimp only at hy
      obtain ⟨u, hu, hy⟩ := bind_ok hy
      obtain ⟨v, hv, hy⟩ := bind_ok hy
      obtain ⟨_, rfl⟩ := divO_ok hu
      obtain ⟨_, rfl⟩ := divO_ok hv
      cases hy
      rw [brkO_value hq, brkO_value hq0]
    · rw [if_neg h2] at hy ⊢; cases hy; rfl
  | integralWidth chans =>
    unfold Shape.valueO at h
    dsimp only at h
    obtain ⟨g, hg, h⟩ := bind_ok h
    rw [bwO_value h]
    unfold Shape.value integralGamma
    dsimp only
    rw [foldlM_value (f := intStep (p 0) m) _ chans hg]
    intro a c y hy
    unfold intStep at hy
    by_cases h1 : c.1 = 0
    · rw [if_pos h1] at hy ⊢; cases hy; rfl
    rw [if_neg h1] at hy ⊢
    obtain ⟨u, hu, hy⟩ := bind_ok hy
    obtain ⟨_, rfl⟩ := divO_ok hu
    cases hy
    rfl
  | constant => cases h; rfl
  | exponential l m1 m2 norm exponent =>
    unfold Shape.valueO at h
    unfold Shape.value
    dsimp only at h ⊢
    by_cases h1 : m < m1 + m2
    · rw [if_pos h1] at h ⊢; cases h; rfl
    rw [if_neg h1] at h ⊢
    obtain ⟨q, hq, h⟩ := bind_ok h
    cases h
    rw [brkO_value hq]
  | tPrime tMean l m1 m2 norm exponent =>
    unfold Shape.valueO at h
    unfold Shape.value
    dsimp only at h ⊢
    by_cases h1 : m < m1 + m2
    · rw [if_pos h1] at h ⊢; cases h; rfl
    rw [if_neg h1] at h ⊢
    obtain ⟨q, hq, h⟩ := bind_ok h
    cases h
    rw [brkO_value hq]
  | exponentialIntegral ps norm exponent => cases h; rfl
  | tPrimeIntegral tMean ps norm exponent => cases h; rfl

/-! ## bounds of the exponential background -/

theorem relPhaseSpace_exists {n : ℕ} {m1 m2 M m : ℝ} (h1 : 0 ≤ m1) (h2 : 0 ≤ m2)
    (hM : m1 + m2 < M) (hm : 0 < m) (h : m1 + m2 ≤ m) : ∃ x, RelPhaseSpace n m1 m2 M m x := by
  obtain ⟨q, d⟩ := decays_exists h1 h2 hm h
  obtain ⟨Q, D⟩ := decays_exists h1 h2 (lt_of_le_of_lt (add_nonneg h1 h2) hM) hM.le
  exact ⟨_, q, Q, d, D, rfl⟩

theorem relPhaseSpace_mono {n : ℕ} (hn : n ≤ 7) {m1 m2 M m m' x x' : ℝ} (h1 : 0 ≤ m1) (h2 : 0 ≤ m2)
    (hM : m1 + m2 < M) (h : RelPhaseSpace n m1 m2 M m x) (h' : RelPhaseSpace n m1 m2 M m' x')
    (hm : m ≤ m') : 0 ≤ x ∧ x ≤ x' := by
  have hph : (Mode.mk 1 n m1 m2).Physical := ⟨h1, h2, hn⟩
  obtain ⟨q, Q, d, D, e⟩ := h
  obtain ⟨q', Q', d', D', e'⟩ := h'
  have w : (Mode.mk 1 n m1 m2).PhaseSpace M m x := .inr ⟨q, Q, d, D, e⟩
  have w' : (Mode.mk 1 n m1 m2).PhaseSpace M m' x' := .inr ⟨q', Q', d', D', e'⟩
  exact ⟨phaseSpace_nonneg hph hM w, phaseSpace_mono hph hM hm w w'⟩

theorem relPhaseSpace_self {n : ℕ} (hn : n ≤ 7) {m1 m2 M : ℝ} (h1 : 0 ≤ m1) (h2 : 0 ≤ m2)
    (hM : m1 + m2 < M) : RelPhaseSpace n m1 m2 M M 1 := by
  obtain ⟨Q, D⟩ := decays_exists h1 h2 (lt_of_le_of_lt (add_nonneg h1 h2) hM) hM.le
  refine ⟨Q, Q, D, D, ?_⟩
  have hQ := decays_pos h1 h2 D hM
  rw [div_self hQ.ne', ← barrier_div hn hQ, div_self (barrier_pos hn hQ).ne', one_mul]

/-- **C72**: with `g ≥ 0` and a positive exponent the exponential background falls from 1 at threshold to
`exp(-g)` at the largest mass of the fit -/
theorem exponential_bounds {I : Input} {chs : List Channel} {n : ℕ} (hn : n ≤ 7) {m1 m2 e : ℝ} {s : Shape}
    (hb : (ShapeCfg.exponential n m1 m2 e).build I chs = .ok s) (h1 : 0 ≤ m1) (h2 : 0 ≤ m2)
    {p : ℕ → ℝ} (hg : 0 ≤ p 0) (he : 0 < e) (bin : ℕ) {ch : Channel} (hch : chs = [ch]) {M : ℝ}
    (hM : maxMass I ch.bins = .ok M) (hM0 : 0 < M) :
    s.valueO p bin M = .ok ((Real.exp (-p 0) : ℝ) : ℂ) ∧
    (0 < m1 + m2 → s.valueO p bin (m1 + m2) = .ok 1) ∧
    ∀ m m', 0 < m → m ≤ m' → ∃ v v' : ℝ, s.valueO p bin m = .ok (v : ℂ) ∧
      s.valueO p bin m' = .ok (v' : ℂ) ∧ 0 < v' ∧ v' ≤ v ∧ v ≤ 1 := by
  obtain ⟨ch', M', hc, hM', hlow, hup⟩ := exponential_spec hn hb h1 h2 p bin
  rw [hch] at hc
  cases hc
  cases hM.symm.trans hM'
  obtain ⟨hlt, hup⟩ := hup hM0
  refine ⟨?_, ?_, ?_⟩
  · rw [hup M hM0 hlt.le 1 (relPhaseSpace_self hn h1 h2 hlt), Real.one_rpow, mul_one]
  · intro hpos
    have d0 : Decays (m1 + m2) m1 m2 0 := ⟨le_rfl, by
      rw [zero_pow two_ne_zero, add_zero, add_zero, Real.sqrt_sq h1, Real.sqrt_sq h2]⟩
    obtain ⟨x, q, Q, d, D, rfl⟩ := relPhaseSpace_exists (n := n) h1 h2 hlt hpos le_rfl
    have := hup (m1 + m2) hpos le_rfl _ ⟨q, Q, d, D, rfl⟩
    rw [this, Phys.decays_unique d d0, zero_div, zero_mul, Real.zero_rpow he.ne', mul_zero,
      Real.exp_zero, Complex.ofReal_one]
  · intro m m' hm hmm
    by_cases ht' : m' < m1 + m2
    · exact ⟨1, 1, by rw [hlow m (hmm.trans_lt ht'), Complex.ofReal_one],
        by rw [hlow m' ht', Complex.ofReal_one], one_pos, le_rfl, le_rfl⟩
    have ht' := not_lt.mp ht'
    have hm' := hm.trans_le hmm
    obtain ⟨x', hx'⟩ := relPhaseSpace_exists (n := n) h1 h2 hlt hm' ht'
    obtain ⟨hx0', _⟩ := relPhaseSpace_mono hn h1 h2 hlt hx' hx' le_rfl
    by_cases ht : m < m1 + m2
    · refine ⟨1, _, by rw [hlow m ht, Complex.ofReal_one], hup m' hm' ht' x' hx', Real.exp_pos _, ?_, le_rfl⟩
      rw [← Real.exp_zero]
      apply Real.exp_le_exp.mpr
      have := mul_nonneg hg (Real.rpow_nonneg hx0' e)
      linarith only [this]
    have ht := not_lt.mp ht
    obtain ⟨x, hx⟩ := relPhaseSpace_exists (n := n) h1 h2 hlt hm ht
    obtain ⟨hx0, hxx⟩ := relPhaseSpace_mono hn h1 h2 hlt hx hx' hmm
    refine ⟨_, _, hup m hm ht x hx, hup m' hm' ht' x' hx', Real.exp_pos _, ?_, ?_⟩
    · apply Real.exp_le_exp.mpr
      have := mul_le_mul_of_nonneg_left (Real.rpow_le_rpow hx0 hxx he.le) hg
      linarith only [this]
    · rw [← Real.exp_zero]
      apply Real.exp_le_exp.mpr
      have := mul_nonneg hg (Real.rpow_nonneg hx0 e)
      linarith only [this]

/-! ## finding: with exponent 0 the exponential background jumps at threshold -/

/-- the exponent of the configuration is not checked -/
theorem exponential_jump {I : Input} {chs : List Channel} {n : ℕ} (hn : n ≤ 7) {m1 m2 : ℝ} {s : Shape}
    (hb : (ShapeCfg.exponential n m1 m2 0).build I chs = .ok s) (h1 : 0 ≤ m1) (h2 : 0 ≤ m2)
    (p : ℕ → ℝ) (bin : ℕ) {ch : Channel} (hch : chs = [ch]) {M : ℝ}
    (hM : maxMass I ch.bins = .ok M) (hM0 : 0 < M) :
    (∀ m < m1 + m2, s.valueO p bin m = .ok 1) ∧
    ∀ m, 0 < m → m1 + m2 ≤ m → s.valueO p bin m = .ok ((Real.exp (-p 0) : ℝ) : ℂ) := by
  obtain ⟨ch', M', hc, hM', hlow, hup⟩ := exponential_spec hn hb h1 h2 p bin
  rw [hch] at hc
  cases hc
  cases hM.symm.trans hM'
  obtain ⟨hlt, hup⟩ := hup hM0
  refine ⟨hlow, fun m hm ht => ?_⟩
  obtain ⟨x, hx⟩ := relPhaseSpace_exists (n := n) h1 h2 hlt hm ht
  rw [hup m hm ht x hx, Real.rpow_zero, mul_one]

/-! ## concrete cases -/

/-- two decay modes with ratios 3 and 1, the first into masses 3 and 0 (S wave), the second into masses
4 and 5 (P wave) -/
def exModes : List Mode := [⟨3, 0, 3, 0⟩, ⟨1, 1, 4, 5⟩]

def exInput : Input := ⟨[[['a']]], [2], fun _ m => 4 + m, fun _ _ _ => 1, fun _ _ _ => 1⟩

def exChan : Channel := ⟨['a'], [some 0], fun _ _ => 1, fun _ _ => 1⟩

theorem ex_build : ∃ s, (modesCfg exModes).build exInput [exChan] = .ok s := by
  refine ⟨.dynamicWidth [(3 / 4, 0, 3, 0), (1 / 4, 1, 4, 5)], ?_⟩
  unfold modesCfg ShapeCfg.build exModes
  dsimp only [List.map]
  rw [if_neg (by simp), if_neg (by simp)]
  unfold normRatios
  dsimp only
  rw [if_neg (by norm_num [List.foldl])]
  simp only [Outcome.ok_bind, List.map_cons, List.map_nil, List.foldl_cons, List.foldl_nil]
  norm_num

/-- at mass 5 only the first mode is open; nominal mass 10 -/
theorem ex_physical : ∀ c ∈ exModes, c.ratio ≠ 0 → c.Physical ∧ c.m1 + c.m2 < 10 := by
  intro c hc _
  simp only [exModes, List.mem_cons, List.not_mem_nil, or_false] at hc
  rcases hc with rfl | rfl
  · exact ⟨⟨by norm_num, by norm_num, by norm_num⟩, by norm_num⟩
  · exact ⟨⟨by norm_num, by norm_num, by norm_num⟩, by norm_num⟩

/-- the hypotheses of `dynamic_at` and `dynamic_im` are met -/
theorem ex_dynamic : ∃ s, (modesCfg exModes).build exInput [exChan] = .ok s ∧
    s.valueO (fun k => if k = 0 then 10 else 1) 0 10 = .ok Complex.I ∧
    ∃ A, s.valueO (fun k => if k = 0 then 10 else 1) 0 5 = .ok A ∧ 0 ≤ A.im := by
  obtain ⟨s, hs⟩ := ex_build
  refine ⟨s, hs, ?_, ?_⟩
  · exact dynamic_at hs (by simp [exModes]) (p := fun k => if k = 0 then 10 else 1) 0 (by norm_num)
      (by norm_num) (by simpa using ex_physical)
  · exact dynamic_im hs (by simp [exModes]) (p := fun k => if k = 0 then 10 else 1) 0 (by norm_num)
      (by norm_num) (by norm_num) (by simp [exModes]) (by simpa using ex_physical)

/-- with a nominal mass of 8, below the threshold 9 of the second mode, the program ends at masses from
9 on: `dynamic_stops` has instances -/
theorem ex_stops : ∃ s, (modesCfg exModes).build exInput [exChan] = .ok s ∧
    ∀ A, s.valueO (fun k => if k = 0 then 8 else 1) 0 9 ≠ .ok A := by
  obtain ⟨s, hs⟩ := ex_build
  refine ⟨s, hs, fun A => dynamic_stops hs (p := fun k => if k = 0 then 8 else 1) 0 (by norm_num)
    (c := ⟨1, 1, 4, 5⟩) (by simp [exModes]) (by norm_num) ⟨by norm_num, by norm_num, by norm_num⟩
    (by norm_num) (by norm_num) A⟩

/-- a background that decays into masses 3 and 0 in a fit up to mass 5 is built -/
theorem ex_exponential : ∃ s, (ShapeCfg.exponential 0 3 0 2).build exInput [exChan] = .ok s ∧
    maxMass exInput exChan.bins = .ok 5 := by
  have hM : maxMass exInput exChan.bins = .ok 5 := by
    have : exChan.bins = [0] := rfl
    rw [this]
    unfold maxMass
    have h2 : exInput.nrMassOf 0 = 2 := rfl
    rw [if_neg (by simp [h2])]
    simp only [List.map_cons, List.map_nil, h2, List.foldl_nil]
    show Outcome.ok ((4 : ℝ) + ((2 - 1 : ℕ) : ℝ)) = .ok 5
    norm_num
  have hd : Decays 5 3 0 (8 / 5) := by
    refine ⟨by norm_num, ?_⟩
    rw [show (3 : ℝ) ^ 2 + (8 / 5) ^ 2 = (17 / 5) ^ 2 by norm_num,
      show (0 : ℝ) ^ 2 + (8 / 5) ^ 2 = (8 / 5) ^ 2 by norm_num,
      Real.sqrt_sq (by norm_num), Real.sqrt_sq (by norm_num)]
    norm_num
  have hq : brkO 5 3 0 = .ok (8 / 5) := brkO_ok (by norm_num) le_rfl (by norm_num) hd
  refine ⟨.exponential 0 3 0 (5 / 8) 2, ?_, hM⟩
  unfold ShapeCfg.build
  dsimp only [oneChannel]
  rw [Outcome.ok_bind]
  unfold normBreakup
  rw [hM, Outcome.ok_bind, hq, Outcome.ok_bind]
  have hf : Phys.barrierFactorSquared (2 * 0) (8 / 5) = 1 := by
    unfold Phys.barrierFactorSquared Phys.barrierFactorSquaredZ; simp
  unfold divO
  rw [hf, if_neg (by norm_num), Outcome.ok_bind]
  norm_num

end Rpwa.ResFit

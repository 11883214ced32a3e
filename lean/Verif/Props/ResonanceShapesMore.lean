import Verif.Props.ResonanceShapes
import Mathlib.Analysis.Complex.Norm
import Mathlib.Order.Bounds.Basic

/-!
# C72: dynamic amplitudes, consequences and the other kinds of components
-/

namespace Rpwa.ResFit

open Spec Phys.Spec

/-! ## Breit-Wigner amplitudes -/

theorem bw_parts (m0 g0 g m : ℝ) :
    (breitWigner m0 g0 g m).re = m0 * g0 * (m0 ^ 2 - m ^ 2) / ((m0 ^ 2 - m ^ 2) ^ 2 + (m0 * g) ^ 2) ∧
    (breitWigner m0 g0 g m).im = m0 * g0 * (m0 * g) / ((m0 ^ 2 - m ^ 2) ^ 2 + (m0 * g) ^ 2) := by
  have hd : ((m0 : ℂ) ^ 2 - (m : ℂ) ^ 2 - Complex.I * (m0 * g : ℂ)) = ⟨m0 ^ 2 - m ^ 2, -(m0 * g)⟩ := by
    apply Complex.ext <;> simp [sq]
  have hn : ((m0 : ℂ) * (g0 : ℂ)) = ((m0 * g0 : ℝ) : ℂ) := by rw [Complex.ofReal_mul]
  unfold breitWigner
  rw [hd, hn, Complex.div_re, Complex.div_im, Complex.normSq_mk]
  simp only [Complex.ofReal_re, Complex.ofReal_im]
  constructor <;> ring

/-- **C72**: the absorptive part of the amplitude: `Γ0 Im A = Γ(m) |A|²` -/
theorem bw_unitary (m0 g0 g m : ℝ) :
    g0 * (breitWigner m0 g0 g m).im = g * Complex.normSq (breitWigner m0 g0 g m) := by
  obtain ⟨a, b⟩ := bw_parts m0 g0 g m
  rw [Complex.normSq_apply, a, b]
  by_cases h : (m0 ^ 2 - m ^ 2) ^ 2 + (m0 * g) ^ 2 = 0
  · rw [h]; simp
  · field_simp

/-- **C72**: at the nominal mass and with the nominal width the amplitude is `i` -/
theorem bw_at {m0 g0 : ℝ} (h0 : 0 < m0) (h1 : 0 < g0) : breitWigner m0 g0 g0 m0 = Complex.I := by
  obtain ⟨a, b⟩ := bw_parts m0 g0 g0 m0
  apply Complex.ext
  · rw [a]; simp
  · rw [b, Complex.I_im, sub_self, zero_pow two_ne_zero, zero_add, ← sq, div_self]
    positivity

/-- **C72**: amplitudes with a fixed width lie on the circle of radius 1/2 around `i/2` -/
theorem bw_circle {m0 g0 m : ℝ} (h0 : 0 < m0) (h1 : 0 < g0) :
    ‖breitWigner m0 g0 g0 m - Complex.I / 2‖ = 1 / 2 := by
  have hu := bw_unitary m0 g0 g0 m
  have hu : (breitWigner m0 g0 g0 m).im = Complex.normSq (breitWigner m0 g0 g0 m) := by
    have := mul_left_cancel₀ h1.ne' hu
    exact this
  rw [Complex.normSq_apply] at hu
  have hn : Complex.normSq (breitWigner m0 g0 g0 m - Complex.I / 2) = (1 / 2) ^ 2 := by
    have e1 : (breitWigner m0 g0 g0 m - Complex.I / 2).re = (breitWigner m0 g0 g0 m).re := by
      simp
    have e2 : (breitWigner m0 g0 g0 m - Complex.I / 2).im = (breitWigner m0 g0 g0 m).im - 1 / 2 := by
      simp
    rw [Complex.normSq_apply, e1, e2]
    linarith only [hu]
  rw [← Complex.sq_norm, sq_eq_sq₀ (norm_nonneg _) (by norm_num)] at hn
  exact hn

/-- **C72**: component with fixed width -/
theorem fixed_spec {I : Input} {chs : List Channel} {s : Shape} (hb : ShapeCfg.fixedWidth.build I chs = .ok s)
    {p : ℕ → ℝ} (bin : ℕ) (m : ℝ) (h0 : 0 < p 0) (h1 : 0 < p 1) :
    s.valueO p bin m = .ok (breitWigner (p 0) (p 1) (p 1) m) := by
  cases hb
  exact bwO_ok (.inr (mul_pos h1 h0).ne')

/-! ## dynamic width -/

/-- the phase space of a mode is defined at all masses if the nominal mass is above threshold -/
theorem phaseSpace_exists {c : Mode} {m0 m : ℝ} (hph : c.Physical) (h0 : c.m1 + c.m2 < m0) (hm : 0 < m) :
    ∃ w, c.PhaseSpace m0 m w := by
  by_cases h : m < c.m1 + c.m2
  · exact ⟨0, .inl ⟨h, rfl⟩⟩
  · obtain ⟨q, d⟩ := decays_exists hph.hm1 hph.hm2 hm (not_lt.mp h)
    obtain ⟨q0, d0⟩ := decays_exists hph.hm1 hph.hm2
      (lt_of_le_of_lt (add_nonneg hph.hm1 hph.hm2) h0) h0.le
    exact ⟨_, .inr ⟨q, q0, d, d0, rfl⟩⟩

theorem phaseSpace_eq {c : Mode} {m0 m w : ℝ} (hph : c.Physical) (h0 : c.m1 + c.m2 < m0)
    (h : c.PhaseSpace m0 m w) : (m < c.m1 + c.m2 ∧ w = 0) ∨
    ∃ q q0, Decays m c.m1 c.m2 q ∧ 0 < q0 ∧ Decays m0 c.m1 c.m2 q0 ∧
      w = q / q0 * (Phys.barrierFactorSquared (2 * (c.L : ℤ)) q / Phys.barrierFactorSquared (2 * (c.L : ℤ)) q0) := by
  rcases h with h | ⟨q, q0, d, d0, e⟩
  · exact .inl h
  · have hq := decays_pos hph.hm1 hph.hm2 d0 h0
    exact .inr ⟨q, q0, d, hq, d0, by rw [e, barrier_div hph.hL hq]⟩

theorem phaseSpace_nonneg {c : Mode} {m0 m w : ℝ} (hph : c.Physical) (h0 : c.m1 + c.m2 < m0)
    (h : c.PhaseSpace m0 m w) : 0 ≤ w := by
  rcases phaseSpace_eq hph h0 h with ⟨_, rfl⟩ | ⟨q, q0, d, hq, _, rfl⟩
  · exact le_rfl
  · exact mul_nonneg (div_nonneg d.1 hq.le)
      (div_nonneg (barrier_nonneg hph.hL d.1) (barrier_pos hph.hL hq).le)

/-- **C72**: the phase space of a mode grows with mass -/
theorem phaseSpace_mono {c : Mode} {m0 m m' w w' : ℝ} (hph : c.Physical) (h0 : c.m1 + c.m2 < m0)
    (hm : m ≤ m') (h : c.PhaseSpace m0 m w) (h' : c.PhaseSpace m0 m' w') : w ≤ w' := by
  have hn := phaseSpace_nonneg hph h0 h'
  rcases phaseSpace_eq hph h0 h with ⟨_, rfl⟩ | ⟨q, q0, d, hq, d0, rfl⟩
  · exact hn
  rcases phaseSpace_eq hph h0 h' with ⟨hl, rfl⟩ | ⟨q', q0', d', hq', d0', rfl⟩
  · exact absurd (decays_le d) (not_le.mpr (hm.trans_lt hl))
  rw [Phys.decays_unique d0' d0]
  have hqq := decays_mono d d' hm
  have hb := barrier_pos hph.hL hq
  have hb1 := barrier_mono hph.hL d.1 hqq
  exact mul_le_mul (by gcongr) (by gcongr) (div_nonneg (barrier_nonneg hph.hL d.1) hb.le)
    (div_nonneg d'.1 hq.le)

/-- **C72**: at its nominal mass the amplitude of a resonance is `i` -/
theorem dynamic_at {I : Input} {chs : List Channel} {modes : List Mode} {s : Shape}
    (hb : (modesCfg modes).build I chs = .ok s) (hne : modes ≠ []) {p : ℕ → ℝ} (bin : ℕ)
    (h0 : 0 < p 0) (h1 : 0 < p 1)
    (hp : ∀ c ∈ modes, c.ratio ≠ 0 → c.Physical ∧ c.m1 + c.m2 < p 0) :
    s.valueO p bin (p 0) = .ok Complex.I := by
  have hw : ∀ c ∈ modes, c.ratio ≠ 0 → c.Physical ∧ c.m1 + c.m2 < p 0 ∧ c.PhaseSpace (p 0) (p 0) 1 := by
    intro c hc hr
    obtain ⟨a, b⟩ := hp c hc hr
    obtain ⟨w, hw⟩ := phaseSpace_exists (m := p 0) a b h0
    exact ⟨a, b, phaseSpace_at a b hw ▸ hw⟩
  rw [dynamic_spec hb hne bin h0 h1 h0 (fun _ => 1) hw,
    width_at (fun _ => 1) modes ((build_modes hb).2.1 hne) hw, div_self h0.ne', mul_one, mul_one,
    bw_at h0 h1]

/-- **C72**: below all thresholds the amplitude is real -/
theorem dynamic_below {I : Input} {chs : List Channel} {modes : List Mode} {s : Shape}
    (hb : (modesCfg modes).build I chs = .ok s) (hne : modes ≠ []) {p : ℕ → ℝ} {m : ℝ} (bin : ℕ)
    (h0 : 0 < p 0) (h1 : 0 < p 1) (hm : 0 < m)
    (hp : ∀ c ∈ modes, c.ratio ≠ 0 → c.Physical ∧ c.m1 + c.m2 < p 0 ∧ m < c.m1 + c.m2) :
    s.valueO p bin m = .ok ((p 0 * p 1 / (p 0 ^ 2 - m ^ 2) : ℝ) : ℂ) := by
  rw [dynamic_spec hb hne bin h0 h1 hm (fun _ => 0)
    (fun c hc hr => ⟨(hp c hc hr).1, (hp c hc hr).2.1, .inl ⟨(hp c hc hr).2.2, rfl⟩⟩)]
  have e : (modes.map fun c => c.ratio / (modes.map Mode.ratio).sum * 0).sum = 0 := by simp
  rw [e, mul_zero]
  unfold breitWigner
  simp

/-- **C72**: with branching ratios that are not negative the amplitude has a positive imaginary part -/
theorem dynamic_im {I : Input} {chs : List Channel} {modes : List Mode} {s : Shape}
    (hb : (modesCfg modes).build I chs = .ok s) (hne : modes ≠ []) {p : ℕ → ℝ} {m : ℝ} (bin : ℕ)
    (h0 : 0 < p 0) (h1 : 0 < p 1) (hm : 0 < m) (hr : ∀ c ∈ modes, 0 ≤ c.ratio)
    (hp : ∀ c ∈ modes, c.ratio ≠ 0 → c.Physical ∧ c.m1 + c.m2 < p 0) :
    ∃ A, s.valueO p bin m = .ok A ∧ 0 ≤ A.im := by
  classical
  let w : Mode → ℝ := fun c => if h : ∃ w, c.PhaseSpace (p 0) m w then h.choose else 0
  have hw : ∀ c ∈ modes, c.ratio ≠ 0 → c.Physical ∧ c.m1 + c.m2 < p 0 ∧ c.PhaseSpace (p 0) m (w c) := by
    intro c hc hr
    obtain ⟨a, b⟩ := hp c hc hr
    refine ⟨a, b, ?_⟩
    have := phaseSpace_exists a b hm
    show c.PhaseSpace (p 0) m (if h : ∃ w, c.PhaseSpace (p 0) m w then h.choose else 0)
    rw [dif_pos this]
    exact this.choose_spec
  refine ⟨_, dynamic_spec hb hne bin h0 h1 hm w hw, ?_⟩
  rw [(bw_parts _ _ _ _).2]
  have hS : 0 ≤ (modes.map Mode.ratio).sum := List.sum_nonneg (by simpa using hr)
  have : 0 ≤ (modes.map fun c => c.ratio / (modes.map Mode.ratio).sum * w c).sum := by
    apply List.sum_nonneg
    intro x hx
    obtain ⟨c, hc, rfl⟩ := List.mem_map.mp hx
    by_cases h : c.ratio = 0
    · rw [h, zero_div, zero_mul]
    · obtain ⟨a, b, d⟩ := hw c hc h
      exact mul_nonneg (div_nonneg (hr c hc) hS) (phaseSpace_nonneg a b d)
  positivity

/-- a loop that stops at one element does not return -/
theorem foldlM_stops {α β : Type} {f : β → α → Outcome β} {l : List α} {x : α} (hx : x ∈ l)
    (h : ∀ b b', f b x ≠ .ok b') (b b' : β) : l.foldlM f b ≠ .ok b' := by
  induction l generalizing b with
  | nil => cases hx
  | cons y l ih =>
    rw [List.foldlM_cons]
    intro hc
    cases e : f b y with
    | ok c =>
      rw [e, Outcome.ok_bind] at hc
      rcases List.mem_cons.mp hx with rfl | hx
      · exact h _ _ e
      · exact ih hx c hc
    | terminate => rw [e] at hc; cases hc
    | ub => rw [e] at hc; cases hc

/-- **C72**: no value is returned at masses above the threshold of a mode the nominal mass does not
exceed: the break-up momentum at the nominal mass throws (below threshold) or is divided by (at it) -/
theorem dynamic_stops {I : Input} {chs : List Channel} {modes : List Mode} {s : Shape}
    (hb : (modesCfg modes).build I chs = .ok s) {p : ℕ → ℝ} {m : ℝ} (bin : ℕ) (h0 : 0 < p 0)
    {c : Mode} (hc : c ∈ modes) (hr : c.ratio ≠ 0) (hph : c.Physical) (ht : p 0 ≤ c.m1 + c.m2)
    (hm : c.m1 + c.m2 ≤ m) (A : ℂ) : s.valueO p bin m ≠ .ok A := by
  have hne : modes ≠ [] := fun h => by rw [h] at hc; cases hc
  obtain ⟨_, hS, rfl⟩ := build_modes hb
  have hS := hS hne
  unfold Shape.valueO
  dsimp only
  intro he
  have key : ∀ g g', dynStep (p 0) m g (c.ratio / (modes.map Mode.ratio).sum, (c.L : ℤ), c.m1, c.m2)
      ≠ .ok g' := by
    intro g g' hg
    unfold dynStep at hg
    dsimp only at hg
    rw [if_neg (div_ne_zero hr hS), if_pos (show m ≥ _ from hm)] at hg
    obtain ⟨q, d⟩ := decays_exists hph.hm1 hph.hm2 (h0.trans_le (ht.trans hm)) hm
    rw [brkO_ok hph.hm1 hph.hm2 (h0.trans_le (ht.trans hm)) d, Outcome.ok_bind] at hg
    rcases ht.lt_or_eq with ht | ht
    · have : brkO (p 0) c.m1 c.m2 = .terminate := by
        unfold brkO
        rw [(Phys.breakupMomentum_none h0 hph.hm1 hph.hm2).mpr
          (fun ⟨q, d⟩ => absurd (decays_le d) (not_le.mpr ht))]
      rw [this] at hg
      cases hg
    · have d0 : Decays (p 0) c.m1 c.m2 0 := ⟨le_rfl, by
        rw [zero_pow two_ne_zero, add_zero, add_zero, Real.sqrt_sq hph.hm1, Real.sqrt_sq hph.hm2, ht]⟩
      rw [brkO_ok hph.hm1 hph.hm2 h0 d0, Outcome.ok_bind] at hg
      unfold divO at hg
      rw [if_pos rfl] at hg
      cases hg
  cases e : (modes.map fun c => (c.ratio / (modes.map Mode.ratio).sum, (c.L : ℤ), c.m1, c.m2)).foldlM
      (dynStep (p 0) m) 0 with
  | ok g =>
    exact foldlM_stops (List.mem_map.mpr ⟨c, hc, rfl⟩) key 0 g e
  | terminate => rw [e] at he; cases he
  | ub => rw [e] at he; cases he

/-! ## width from phase-space integrals -/

/-- the arguments of the constructor for pairs of ratio and phase-space integral -/
def integralCfg (modes : List (ℝ × (ℝ → ℝ))) : ShapeCfg :=
  .integralWidth (modes.map Prod.fst) (modes.map Prod.snd)

theorem build_integral {I : Input} {chs : List Channel} {modes : List (ℝ × (ℝ → ℝ))} {s : Shape}
    (h : (integralCfg modes).build I chs = .ok s) :
    chs.length ≤ modes.length ∧ (modes ≠ [] → (modes.map Prod.fst).sum ≠ 0) ∧
    s = .integralWidth (modes.map fun c => (c.1 / (modes.map Prod.fst).sum, c.2)) := by
  unfold integralCfg ShapeCfg.build at h
  dsimp only at h
  by_cases h1 : (modes.map Prod.fst).length < chs.length
  · rw [if_pos h1] at h; cases h
  rw [if_neg h1, if_neg (by simp)] at h
  cases e : normRatios (modes.map Prod.fst) with
  | ok r =>
    rw [e, Outcome.ok_bind] at h
    obtain ⟨a, b⟩ := normRatios_ok e
    cases h
    refine ⟨by simpa using h1, fun hn => a (by simpa using hn), ?_⟩
    rw [b, List.map_map, List.zip_map']
    rfl
  | terminate => rw [e] at h; cases h
  | ub => rw [e] at h; cases h

/-- **C72**: Breit-Wigner amplitude with the width from phase-space integrals -/
theorem integral_spec {I : Input} {chs : List Channel} {modes : List (ℝ × (ℝ → ℝ))} {s : Shape}
    (hb : (integralCfg modes).build I chs = .ok s) (hne : modes ≠ []) {p : ℕ → ℝ} {m : ℝ} (bin : ℕ)
    (h0 : 0 < p 0) (h1 : 0 < p 1) (hm : 0 < m) (hp : ∀ c ∈ modes, c.1 ≠ 0 → c.2 (p 0) ≠ 0) :
    s.valueO p bin m = .ok (breitWigner (p 0) (p 1)
      (p 1 * (modes.map fun c => c.1 / (modes.map Prod.fst).sum * (c.2 m / c.2 (p 0))).sum) m) ∧
    s.valueO p bin (p 0) = .ok Complex.I := by
  obtain ⟨_, hS, rfl⟩ := build_integral hb
  have hS := hS hne
  have hstep : ∀ m g, ∀ c ∈ modes, intStep (p 0) m g (c.1 / (modes.map Prod.fst).sum, c.2)
      = .ok (g + c.1 / (modes.map Prod.fst).sum * (c.2 m / c.2 (p 0))) := by
    intro m g c hc
    unfold intStep
    dsimp only
    by_cases hr : c.1 = 0
    · rw [if_pos (by rw [hr, zero_div]), hr, zero_div, zero_mul, add_zero]
    · rw [if_neg (div_ne_zero hr hS)]
      unfold divO
      rw [if_neg (hp c hc hr), Outcome.ok_bind, mul_div_assoc]
  have hloop : ∀ (m : ℝ) (l : List (ℝ × (ℝ → ℝ))), (∀ c ∈ l, c ∈ modes) → ∀ g : ℝ,
      (l.map fun c => (c.1 / (modes.map Prod.fst).sum, c.2)).foldlM (intStep (p 0) m) g
        = Outcome.ok (g + (l.map fun c => c.1 / (modes.map Prod.fst).sum * (c.2 m / c.2 (p 0))).sum) := by
    intro m l
    induction l with
    | nil => intro _ g; rw [List.map_nil, List.map_nil, List.sum_nil, add_zero]; rfl
    | cons c l ih =>
      intro hl g
      rw [List.map_cons, List.foldlM_cons, hstep m g c (hl c List.mem_cons_self), Outcome.ok_bind,
        ih (fun c hc => hl c (List.mem_cons_of_mem _ hc)), List.map_cons, List.sum_cons, add_assoc]
  have hat : (modes.map fun c => c.1 / (modes.map Prod.fst).sum * (c.2 (p 0) / c.2 (p 0))).sum = 1 := by
    have e : (modes.map fun c => c.1 / (modes.map Prod.fst).sum * (c.2 (p 0) / c.2 (p 0)))
        = modes.map fun c => c.1 / (modes.map Prod.fst).sum := by
      apply List.map_congr_left
      intro c hc
      by_cases hr : c.1 = 0
      · rw [hr, zero_div, zero_mul]
      · rw [div_self (hp c hc hr), mul_one]
    rw [e]
    have hd : ∀ (S : ℝ) (l : List (ℝ × (ℝ → ℝ))), (l.map fun c => c.1 / S).sum = (l.map Prod.fst).sum / S := by
      intro S l
      induction l with
      | nil => simp
      | cons c l ih => rw [List.map_cons, List.sum_cons, ih, List.map_cons, List.sum_cons, add_div]
    rw [hd, div_self hS]
  have main : ∀ m, 0 < m → (Shape.integralWidth (modes.map fun c => (c.1 / (modes.map Prod.fst).sum, c.2))).valueO p bin m
      = .ok (breitWigner (p 0) (p 1)
      (p 1 * (modes.map fun c => c.1 / (modes.map Prod.fst).sum * (c.2 m / c.2 (p 0))).sum) m) := by
    intro m hm
    unfold Shape.valueO
    dsimp only
    rw [hloop m modes (fun _ h => h) 0, Outcome.ok_bind, zero_add, mul_comm]
    apply bwO_ok
    by_cases hmm : m = p 0
    · right
      rw [hmm, hat, mul_one]
      exact (mul_pos h1 h0).ne'
    · left
      intro hc
      exact hmm ((sq_eq_sq₀ hm.le h0.le).mp hc)
  refine ⟨main m hm, ?_⟩
  rw [main _ h0, hat, mul_one, bw_at h0 h1]

/-! ## backgrounds -/

theorem foldl_maxStep (l : List ℝ) (x : ℝ) :
    (l.foldl maxStep x = x ∨ l.foldl maxStep x ∈ l) ∧ x ≤ l.foldl maxStep x ∧ ∀ y ∈ l, y ≤ l.foldl maxStep x := by
  induction l generalizing x with
  | nil => exact ⟨.inl rfl, le_rfl, fun y hy => by cases hy⟩
  | cons z l ih =>
    rw [List.foldl_cons]
    obtain ⟨a, b, c⟩ := ih (maxStep x z)
    have hz : x ≤ maxStep x z ∧ z ≤ maxStep x z ∧ (maxStep x z = x ∨ maxStep x z = z) := by
      unfold maxStep
      split
      · rename_i h; exact ⟨h.le, le_rfl, .inr rfl⟩
      · rename_i h; exact ⟨le_rfl, not_lt.mp h, .inl rfl⟩
    refine ⟨?_, hz.1.trans b, ?_⟩
    · rcases a with a | a
      · rw [a]
        rcases hz.2.2 with h | h
        · exact .inl h
        · rw [h]; exact .inr List.mem_cons_self
      · exact .inr (List.mem_cons_of_mem _ a)
    · intro y hy
      rcases List.mem_cons.mp hy with rfl | hy
      · exact hz.2.1.trans b
      · exact c y hy

/-- **C72**: the mass at which backgrounds are normalised is the largest centre of the last mass bins of
the used bins -/
theorem maxMass_spec {I : Input} {bins : List ℕ} {M : ℝ} (h : maxMass I bins = .ok M) :
    IsGreatest {x | ∃ b ∈ bins, 0 < I.nrMassOf b ∧ x = I.center b (I.nrMassOf b - 1)} M := by
  unfold maxMass at h
  by_cases h1 : bins.any (fun b => I.nrMassOf b == 0)
  · rw [if_pos h1] at h; cases h
  rw [if_neg h1] at h
  have hpos : ∀ b ∈ bins, 0 < I.nrMassOf b := by
    intro b hb
    by_contra hc
    exact h1 (List.any_eq_true.mpr ⟨b, hb, by simpa using hc⟩)
  cases e : bins.map (fun b => I.center b (I.nrMassOf b - 1)) with
  | nil => rw [e] at h; cases h
  | cons x xs =>
    rw [e] at h
    cases h
    obtain ⟨a, b, c⟩ := foldl_maxStep xs x
    constructor
    · have : xs.foldl maxStep x ∈ bins.map (fun b => I.center b (I.nrMassOf b - 1)) := by
        rw [e]
        rcases a with a | a
        · rw [a]; exact List.mem_cons_self
        · exact List.mem_cons_of_mem _ a
      obtain ⟨k, hk, ek⟩ := List.mem_map.mp this
      exact ⟨k, hk, hpos k hk, ek.symm⟩
    · rintro y ⟨k, hk, _, rfl⟩
      have : I.center k (I.nrMassOf k - 1) ∈ x :: xs := by
        rw [← e]; exact List.mem_map.mpr ⟨k, hk, rfl⟩
      rcases List.mem_cons.mp this with h | h
      · rw [h]; exact b
      · exact c _ h

theorem normBreakup_ok {I : Input} {bins : List ℕ} {n : ℤ} {m1 m2 norm : ℝ}
    (h : normBreakup I bins n m1 m2 = .ok norm) :
    ∃ M q, maxMass I bins = .ok M ∧ Phys.breakupMomentum M m1 m2 = some q ∧
      q * Phys.barrierFactorSquared (2 * n) q ≠ 0 ∧ norm = 1 / (q * Phys.barrierFactorSquared (2 * n) q) := by
  unfold normBreakup at h
  cases e : maxMass I bins with
  | ok M =>
    rw [e, Outcome.ok_bind] at h
    unfold brkO at h
    cases eq : Phys.breakupMomentum M m1 m2 with
    | none => rw [eq] at h; cases h
    | some q =>
      rw [eq] at h
      dsimp only [Outcome.ok_bind] at h
      unfold divO at h
      by_cases h0 : q * Phys.barrierFactorSquared (2 * n) q = 0
      · rw [if_pos h0] at h; cases h
      · rw [if_neg h0] at h; cases h
        exact ⟨M, q, rfl, eq, h0, rfl⟩
  | terminate => rw [e] at h; cases h
  | ub => rw [e] at h; cases h

theorem oneChannel_ok {chs : List Channel} {ch : Channel} (h : oneChannel chs = .ok ch) : chs = [ch] := by
  match chs, h with
  | [c], h => cases h; rfl

/-- break-up momentum times squared barrier factor at the mass `m`, in units of its value at `M` -/
def RelPhaseSpace (n : ℕ) (m1 m2 M m x : ℝ) : Prop :=
  ∃ q Q, Decays m m1 m2 q ∧ Decays M m1 m2 Q ∧
    x = q / Q * (penetrability n (q / 0.1973) / penetrability n (Q / 0.1973))

theorem relPhaseSpace_norm {I : Input} {bins : List ℕ} {n : ℕ} (hn : n ≤ 7) {m1 m2 norm m x : ℝ}
    (h1 : 0 ≤ m1) (h2 : 0 ≤ m2) (hm : 0 < m)
    (h : normBreakup I bins n m1 m2 = .ok norm) :
    ∃ M, maxMass I bins = .ok M ∧ (0 < M → m1 + m2 ≤ M ∧
      (RelPhaseSpace n m1 m2 M m x → ∃ q, brkO m m1 m2 = .ok q ∧
        q * Phys.barrierFactorSquared (2 * (n : ℤ)) q * norm = x)) := by
  obtain ⟨M, Q, hM, hQ, hz, rfl⟩ := normBreakup_ok h
  refine ⟨M, hM, fun hM0 => ?_⟩
  have D := (Phys.breakupMomentum_iff hM0 h1 h2).mp hQ
  refine ⟨decays_le D, ?_⟩
  rintro ⟨q, Q', d, D', rfl⟩
  cases Phys.decays_unique D' D
  refine ⟨q, brkO_ok h1 h2 hm d, ?_⟩
  have hQ0 : 0 < Q := lt_of_le_of_ne D.1 (fun hc => hz (by rw [← hc, zero_mul]))
  rw [← barrier_div hn hQ0]
  have := (barrier_pos hn hQ0).ne'
  field_simp

/-- **C72**: exponential background: it is built for exactly one decay channel; 1 below threshold, above
it `exp(-g c)` where `c` is a power of the two-body phase space in units of its value at the largest
mass -/
theorem exponential_spec {I : Input} {chs : List Channel} {n : ℕ} (hn : n ≤ 7) {m1 m2 e : ℝ} {s : Shape}
    (hb : (ShapeCfg.exponential n m1 m2 e).build I chs = .ok s) (h1 : 0 ≤ m1) (h2 : 0 ≤ m2)
    (p : ℕ → ℝ) (bin : ℕ) :
    ∃ ch M, chs = [ch] ∧ maxMass I ch.bins = .ok M ∧
    (∀ m < m1 + m2, s.valueO p bin m = .ok 1) ∧
    (0 < M → m1 + m2 < M ∧ ∀ m, 0 < m → m1 + m2 ≤ m → ∀ x, RelPhaseSpace n m1 m2 M m x →
      s.valueO p bin m = .ok ((Real.exp (-p 0 * x ^ e) : ℝ) : ℂ)) := by
  unfold ShapeCfg.build at hb
  dsimp only at hb
  cases ec : oneChannel chs with
  | ok ch =>
    rw [ec, Outcome.ok_bind] at hb
    cases en : normBreakup I ch.bins n m1 m2 with
    | ok norm =>
      rw [en, Outcome.ok_bind] at hb
      cases hb
      obtain ⟨M, Q, hM, hQ, hz, _⟩ := normBreakup_ok en
      refine ⟨ch, M, oneChannel_ok ec, hM, ?_, ?_⟩
      · intro m hm
        unfold Shape.valueO
        dsimp only
        rw [if_pos hm]
      · intro hM0
        have D := (Phys.breakupMomentum_iff hM0 h1 h2).mp hQ
        have hlt : m1 + m2 < M := by
          refine lt_of_le_of_ne (decays_le D) fun hc => ?_
          have d0 : Decays M m1 m2 0 := ⟨le_rfl, by
            rw [zero_pow two_ne_zero, add_zero, add_zero, Real.sqrt_sq h1, Real.sqrt_sq h2, hc]⟩
          cases Phys.decays_unique D d0
          exact hz (zero_mul _)
        refine ⟨hlt, ?_⟩
        intro m hm hle x hx
        obtain ⟨M', hM', hq⟩ := relPhaseSpace_norm (x := x) hn h1 h2 hm en
        cases hM.symm.trans hM'
        obtain ⟨q, e1, e2⟩ := (hq hM0).2 hx
        unfold Shape.valueO
        dsimp only
        rw [if_neg (not_lt.mpr hle), e1, Outcome.ok_bind, e2]
    | terminate => rw [en] at hb; cases hb
    | ub => rw [en] at hb; cases hb
  | terminate => rw [ec] at hb; cases hb
  | ub => rw [ec] at hb; cases hb

/-- **C72**: `t'`-dependent background: one mean `t'` per bin, the exponent is the polynomial
`c1 + c2 t' + c3 t'²` of the mean `t'` of the bin, and there is a factor `(m - m0)^c0` -/
theorem tPrime_spec {I : Input} {chs : List Channel} {tMeans : List ℝ} {n : ℕ} (hn : n ≤ 7) {m1 m2 e : ℝ}
    {s : Shape} (hb : (ShapeCfg.tPrime tMeans n m1 m2 e).build I chs = .ok s) (h1 : 0 ≤ m1) (h2 : 0 ≤ m2)
    (p : ℕ → ℝ) {bin : ℕ} (hbin : bin < I.nrBins) :
    ∃ ch M, chs = [ch] ∧ maxMass I ch.bins = .ok M ∧ ∃ hl : tMeans.length = I.nrBins,
    (∀ m < m1 + m2, s.valueO p bin m = .ok (((m - p 0) ^ p 1 : ℝ) : ℂ)) ∧
    (0 < M → ∀ m, 0 < m → m1 + m2 ≤ m → ∀ x, RelPhaseSpace n m1 m2 M m x →
      s.valueO p bin m = .ok (((m - p 0) ^ p 1 *
        Real.exp (-(p 2 + p 3 * tMeans[bin] + p 4 * tMeans[bin] ^ 2) * x ^ e) : ℝ) : ℂ)) := by
  unfold ShapeCfg.build at hb
  dsimp only at hb
  cases ec : oneChannel chs with
  | ok ch =>
    rw [ec, Outcome.ok_bind] at hb
    by_cases hl : tMeans.length = I.nrBins
    swap
    · rw [if_pos hl] at hb; cases hb
    rw [if_neg (fun h => h hl)] at hb
    cases en : normBreakup I ch.bins n m1 m2 with
    | ok norm =>
      rw [en, Outcome.ok_bind] at hb
      cases hb
      obtain ⟨M, Q, hM, hQ, hz, _⟩ := normBreakup_ok en
      refine ⟨ch, M, oneChannel_ok ec, hM, hl, ?_, ?_⟩
      · intro m hm
        unfold Shape.valueO
        dsimp only
        rw [if_pos hm]
      · intro hM0 m hm hle x hx
        obtain ⟨M', hM', hq⟩ := relPhaseSpace_norm (x := x) hn h1 h2 hm en
        cases hM.symm.trans hM'
        obtain ⟨q, e1, e2⟩ := (hq hM0).2 hx
        unfold Shape.valueO
        dsimp only
        rw [if_neg (not_lt.mpr hle), e1, Outcome.ok_bind, e2, List.getD_eq_getElem _ _ (hl ▸ hbin),
          mul_assoc (p 4), ← sq]
    | terminate => rw [en] at hb; cases hb
    | ub => rw [en] at hb; cases hb
  | terminate => rw [ec] at hb; cases hb
  | ub => rw [ec] at hb; cases hb

theorem normIntegral_ok {I : Input} {bins : List ℕ} {ps : ℝ → ℝ} {norm : ℝ}
    (h : normIntegral I bins ps = .ok norm) :
    ∃ M, maxMass I bins = .ok M ∧ M * ps M ≠ 0 ∧ norm = 1 / (M * ps M) := by
  unfold normIntegral at h
  cases e : maxMass I bins with
  | ok M =>
    rw [e, Outcome.ok_bind] at h
    unfold divO at h
    by_cases h0 : M * ps M = 0
    · rw [if_pos h0] at h; cases h
    · rw [if_neg h0] at h; cases h
      exact ⟨M, rfl, h0, rfl⟩
  | terminate => rw [e] at h; cases h
  | ub => rw [e] at h; cases h

/-- **C72**: exponential background with a phase-space integral -/
theorem exponentialIntegral_spec {I : Input} {chs : List Channel} {ps : ℝ → ℝ} {e : ℝ} {s : Shape}
    (hb : (ShapeCfg.exponentialIntegral ps e).build I chs = .ok s) (p : ℕ → ℝ) (bin : ℕ) (m : ℝ) :
    ∃ ch M, chs = [ch] ∧ maxMass I ch.bins = .ok M ∧ M * ps M ≠ 0 ∧
      s.valueO p bin m = .ok ((Real.exp (-p 0 * (m * ps m / (M * ps M)) ^ e) : ℝ) : ℂ) := by
  unfold ShapeCfg.build at hb
  dsimp only at hb
  cases ec : oneChannel chs with
  | ok ch =>
    rw [ec, Outcome.ok_bind] at hb
    cases en : normIntegral I ch.bins ps with
    | ok norm =>
      rw [en, Outcome.ok_bind] at hb
      cases hb
      obtain ⟨M, hM, hz, rfl⟩ := normIntegral_ok en
      refine ⟨ch, M, oneChannel_ok ec, hM, hz, ?_⟩
      unfold Shape.valueO
      dsimp only
      rw [mul_one_div]
    | terminate => rw [en] at hb; cases hb
    | ub => rw [en] at hb; cases hb
  | terminate => rw [ec] at hb; cases hb
  | ub => rw [ec] at hb; cases hb

/-- **C72**: `t'`-dependent background with a phase-space integral -/
theorem tPrimeIntegral_spec {I : Input} {chs : List Channel} {tMeans : List ℝ} {ps : ℝ → ℝ} {e : ℝ}
    {s : Shape} (hb : (ShapeCfg.tPrimeIntegral tMeans ps e).build I chs = .ok s) (p : ℕ → ℝ)
    {bin : ℕ} (hbin : bin < I.nrBins) (m : ℝ) :
    ∃ ch M, chs = [ch] ∧ maxMass I ch.bins = .ok M ∧ M * ps M ≠ 0 ∧
      ∃ hl : tMeans.length = I.nrBins,
      s.valueO p bin m = .ok (((m - p 0) ^ p 1 *
        Real.exp (-(p 2 + p 3 * tMeans[bin] + p 4 * tMeans[bin] ^ 2)
          * (m * ps m / (M * ps M)) ^ e) : ℝ) : ℂ) := by
  unfold ShapeCfg.build at hb
  dsimp only at hb
  cases ec : oneChannel chs with
  | ok ch =>
    rw [ec, Outcome.ok_bind] at hb
    by_cases hl : tMeans.length = I.nrBins
    swap
    · rw [if_pos hl] at hb; cases hb
    rw [if_neg (fun h => h hl)] at hb
    cases en : normIntegral I ch.bins ps with
    | ok norm =>
      rw [en, Outcome.ok_bind] at hb
      cases hb
      obtain ⟨M, hM, hz, rfl⟩ := normIntegral_ok en
      refine ⟨ch, M, oneChannel_ok ec, hM, hz, hl, ?_⟩
      unfold Shape.valueO
      dsimp only
      rw [mul_one_div, List.getD_eq_getElem _ _ (hl ▸ hbin), mul_assoc (p 4), ← sq]
    | terminate => rw [en] at hb; cases hb
    | ub => rw [en] at hb; cases hb
  | terminate => rw [ec] at hb; cases hb
  | ub => rw [ec] at hb; cases hb

/-- **C72**: constant background -/
theorem constant_spec {I : Input} {chs : List Channel} {s : Shape}
    (hb : ShapeCfg.constant.build I chs = .ok s) (p : ℕ → ℝ) (bin : ℕ) (m : ℝ) :
    chs.length = 1 ∧ s.valueO p bin m = .ok 1 := by
  unfold ShapeCfg.build at hb
  dsimp only at hb
  cases ec : oneChannel chs with
  | ok ch =>
    rw [ec, Outcome.ok_bind] at hb
    cases hb
    rw [oneChannel_ok ec]
    exact ⟨rfl, rfl⟩
  | terminate => rw [ec] at hb; cases hb
  | ub => rw [ec] at hb; cases hb

end Rpwa.ResFit

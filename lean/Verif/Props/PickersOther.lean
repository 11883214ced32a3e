import Verif.Props.PickersMain
/-! The other pickers; examples -/
namespace Rpwa.Pick
open MeasureTheory Set

/-! ### uniformMassAndTPicker -/

/-- what the uniform picker accepts: as the other pickers, and both limits of t' have to be given. -/
theorem uniform_init_iff (s s' : Ranges) (g : Group) : uniformInit s g = .ok (true, s') ↔ s.initialized = false ∧
    ∃ r, RangeSettings g s.tLo s.tHi r ∧ g "tPrimeMin" = some (.float r.tLo) ∧ g "tPrimeMax" = some (.float r.tHi) ∧ s' = { r with initialized := true } := by
  have hall : allThere g [("tPrimeMin", .float), ("tPrimeMax", .float)] = true ↔ ∃ lo hi, g "tPrimeMin" = some (.float lo) ∧ g "tPrimeMax" = some (.float hi) := by
    unfold allThere
    simp only [List.all_cons, List.all_nil, Bool.and_true, Bool.and_eq_true]
    constructor
    · rintro ⟨h1, h2⟩
      cases e1 : g "tPrimeMin" with
      | none => rw [e1] at h1; cases h1
      | some c1 => cases e2 : g "tPrimeMax" with
        | none => rw [e2] at h2; cases h2
        | some c2 =>
          rw [e1] at h1
          rw [e2] at h2
          have t1 := of_decide_eq_true h1
          have t2 := of_decide_eq_true h2
          cases c1 <;> first | cases t1 | skip
          cases c2 <;> first | cases t2 | skip
          exact ⟨_, _, rfl, rfl⟩
    · rintro ⟨lo, hi, h1, h2⟩
      rw [h1, h2]
      exact ⟨rfl, rfl⟩
  unfold uniformInit
  by_cases h : allThere g [("tPrimeMin", .float), ("tPrimeMax", .float)] = true
  · have : ¬ ((!allThere g [("tPrimeMin", CfgType.float), ("tPrimeMax", CfgType.float)]) = true) := by rw [h]; decide
    rw [if_neg this, bind_ok_iff]
    obtain ⟨lo, hi, e1, e2⟩ := hall.1 h
    constructor
    · rintro ⟨⟨b, r⟩, hr, he⟩
      have hb := congrArg Prod.fst (Outcome.ok.inj he)
      dsimp only at hb
      subst hb
      obtain ⟨a1, a2, a3⟩ := (initRanges_iff _ _ _).1 hr
      refine ⟨a1, r, a3, ?_, ?_, (congrArg Prod.snd (Outcome.ok.inj he)).symm⟩
      · rcases a3.htLo with e | ⟨_, e⟩
        · exact e
        · exact absurd e1 (e lo)
      · rcases a3.htHi with e | ⟨_, e⟩
        · exact e
        · exact absurd e2 (e hi)
    · rintro ⟨a1, r, hR, _, _, rfl⟩
      exact ⟨(true, { r with initialized := false }), (initRanges_iff _ _ _).2 ⟨a1, rfl, hR.1, hR.2, hR.3, hR.4, hR.5, hR.6⟩, rfl⟩
  · have h' : allThere g [("tPrimeMin", .float), ("tPrimeMax", .float)] = false := by simpa using h
    rw [if_pos (by rw [h']; rfl)]
    constructor
    · intro e; cases congrArg Prod.fst (Outcome.ok.inj e)
    · rintro ⟨_, r, _, e1, e2, _⟩
      exact absurd (hall.2 ⟨_, _, e1, e2⟩) h

/-- mass and t' divide their ranges in the ratios that the random numbers ask for. -/
theorem uniformPick_spec (s : Ranges) (r1 r2 : ℝ) (h : s.initialized = true) : ∃ m t, uniformPick s r1 r2 = some (m, t) ∧
    m - s.massLo = r1 * (s.massHi - s.massLo) ∧ t - s.tLo = r2 * (s.tHi - s.tLo) := by
  refine ⟨_, _, if_neg (by rw [h]; decide), ?_, ?_⟩ <;> ring

/-! ### polynomialMassAndTPrimeSlopePicker -/

theorem coefficients_iff (g : Group) (n : String) (l : List ℝ) (c : Cfg) (hc : g n = some c) (ht : c.type = .array) :
    coefficients g n = .ok (some l) ↔ c = .array (l.map .float) ∧ l ≠ [] := by
  unfold coefficients
  rw [hc]
  cases c with
  | array a =>
    dsimp only
    cases a with
    | nil =>
      constructor
      · intro h; cases h
      · rintro ⟨h1, h2⟩
        exact absurd (List.map_eq_nil_iff.1 (Cfg.array.inj h1).symm) h2
    | cons x a =>
      rw [if_neg (show ¬ (Cfg.array (x :: a)).length < 1 from by simp [Cfg.length])]
      have h0 : (Cfg.array (x :: a)).at 0 = .ok x := rfl
      rw [h0, Outcome.ok_bind]
      have hl : (Cfg.array (x :: a)).length = (x :: a).length := rfl
      rw [hl]
      by_cases hx : x.isNumber = true
      · have hx' : ¬ ((!x.isNumber) = true) := by rw [hx]; decide
        rw [if_neg hx', bind_ok_iff]
        constructor
        · rintro ⟨q, h1, h2⟩
          cases h2
          have := (read_array_iff _ _).1 h1
          exact ⟨congrArg _ this, fun e => by rw [e] at this; cases this⟩
        · rintro ⟨h1, _⟩
          exact ⟨l, (read_array_iff _ _).2 (Cfg.array.inj h1), rfl⟩
      · have hx' : (!x.isNumber) = true := by simpa using hx
        rw [if_pos hx']
        constructor
        · intro h; cases h
        · rintro ⟨h1, h2⟩
          cases l with
          | nil => exact absurd rfl h2
          | cons y l =>
            have := (List.cons.inj (Cfg.array.inj h1)).1
            rw [this] at hx
            exact absurd rfl hx
  | _ => cases ht

/-- what the polynomial picker accepts: arrays of at least one coefficient for the mass and for the slope. -/
theorem poly_init_iff (s s' : PolyPicker) (g : Group) : s.init g = .ok (true, s') ↔ s.ranges.initialized = false ∧
    ∃ r cm cs, RangeSettings g s.ranges.tLo s.ranges.tHi r ∧ g "coeffsMass" = some (.array (cm.map .float)) ∧ cm ≠ [] ∧
      g "coeffsTSlopes" = some (.array (cs.map .float)) ∧ cs ≠ [] ∧ s' = ⟨{ r with initialized := true }, cm, cs⟩ := by
  have hall : allThere g [("coeffsMass", .array), ("coeffsTSlopes", .array)] = true ↔
      ∃ c1 c2, g "coeffsMass" = some c1 ∧ g "coeffsTSlopes" = some c2 ∧ c1.type = .array ∧ c2.type = .array := by
    unfold allThere
    simp only [List.all_cons, List.all_nil, Bool.and_true, Bool.and_eq_true]
    constructor
    · rintro ⟨h1, h2⟩
      cases e1 : g "coeffsMass" with
      | none => rw [e1] at h1; cases h1
      | some c1 => cases e2 : g "coeffsTSlopes" with
        | none => rw [e2] at h2; cases h2
        | some c2 =>
          rw [e1] at h1
          rw [e2] at h2
          exact ⟨_, _, rfl, rfl, of_decide_eq_true h1, of_decide_eq_true h2⟩
    · rintro ⟨c1, c2, h1, h2, t1, t2⟩
      rw [h1, h2]
      exact ⟨decide_eq_true t1, decide_eq_true t2⟩
  unfold PolyPicker.init
  rw [bind_ok_iff]
  constructor
  · rintro ⟨⟨b, r⟩, hr, h⟩
    cases b with
    | false => cases congrArg Prod.fst (Outcome.ok.inj h)
    | true =>
      obtain ⟨i1, i2, hR⟩ := (initRanges_iff _ _ _).1 hr
      refine ⟨i1, r, ?_⟩
      dsimp only at h
      rw [if_neg (by decide)] at h
      by_cases h1 : allThere g [("coeffsMass", .array), ("coeffsTSlopes", .array)] = true
      · have : ¬ ((!allThere g [("coeffsMass", CfgType.array), ("coeffsTSlopes", CfgType.array)]) = true) := by rw [h1]; decide
        rw [if_neg this] at h
        obtain ⟨c1, c2, e1, e2, t1, t2⟩ := hall.1 h1
        obtain ⟨cm, hcm, h⟩ := (bind_ok_iff _ _ _).1 h
        cases cm with
        | none => cases congrArg Prod.fst (Outcome.ok.inj h)
        | some cm =>
          dsimp only at h
          obtain ⟨cs, hcs, h⟩ := (bind_ok_iff _ _ _).1 h
          cases cs with
          | none => cases congrArg Prod.fst (Outcome.ok.inj h)
          | some cs =>
            obtain ⟨a1, a2⟩ := (coefficients_iff g _ cm c1 e1 t1).1 hcm
            obtain ⟨b1, b2⟩ := (coefficients_iff g _ cs c2 e2 t2).1 hcs
            exact ⟨cm, cs, hR, by rw [e1, a1], a2, by rw [e2, b1], b2, (congrArg Prod.snd (Outcome.ok.inj h)).symm⟩
      · have h1' : allThere g [("coeffsMass", .array), ("coeffsTSlopes", .array)] = false := by simpa using h1
        rw [if_pos (by rw [h1']; rfl)] at h
        cases congrArg Prod.fst (Outcome.ok.inj h)
  · rintro ⟨i1, r, cm, cs, hR, e1, n1, e2, n2, rfl⟩
    refine ⟨(true, { r with initialized := false }), (initRanges_iff _ _ _).2 ⟨i1, rfl, hR.1, hR.2, hR.3, hR.4, hR.5, hR.6⟩, ?_⟩
    dsimp only
    rw [if_neg (by decide), if_neg (by rw [hall.2 ⟨_, _, e1, e2, rfl, rfl⟩]; decide), (coefficients_iff g _ cm _ e1 rfl).2 ⟨rfl, n1⟩, Outcome.ok_bind]
    dsimp only
    rw [(coefficients_iff g _ cs _ e2 rfl).2 ⟨rfl, n2⟩, Outcome.ok_bind]

/-- the polynomial: coefficient `i` multiplies the `i`-th power. -/
theorem polynomial_eq (c : List ℝ) (x : ℝ) : polynomial c x = ∑ i ∈ Finset.range c.length, c.getD i 0 * x ^ i := by
  induction c with
  | nil => rfl
  | cons a c ih =>
    rw [List.length_cons, Finset.sum_range_succ']
    show a + x * polynomial c x = _
    rw [ih, Finset.mul_sum, add_comm, pow_zero, mul_one]
    congr 1
    refine Finset.sum_congr rfl fun i _ => ?_
    rw [List.getD_cons_succ, pow_succ]
    ring

/-- t' that belongs to a random number. -/
noncomputable def expT (slope r : ℝ) : ℝ := -Real.log r / slope

/-- the rejection loop returns the t' of the first random number whose t' lies in the range. -/
theorem rejectLoop_iff (slope lo hi t : ℝ) (rs : List ℝ) : rejectLoop slope lo hi rs = some t ↔
    ∃ pre r post, rs = pre ++ r :: post ∧ (∀ x ∈ pre, expT slope x < lo ∨ hi < expT slope x) ∧ t = expT slope r ∧ lo ≤ t ∧ t ≤ hi := by
  have hT : ∀ r, -(1 / slope) * Real.log r = expT slope r := fun r => by unfold expT; ring
  induction rs with
  | nil =>
    constructor
    · intro h; cases h
    · rintro ⟨pre, r, post, h, _⟩; simp at h
  | cons x rs ih =>
    unfold rejectLoop
    dsimp only
    rw [hT]
    by_cases h : expT slope x < lo ∨ hi < expT slope x
    · rw [if_pos h]
      refine ih.trans ?_
      constructor
      · rintro ⟨pre, r, post, h1, h2, h3⟩
        refine ⟨x :: pre, r, post, by rw [h1]; rfl, fun y hy => ?_, h3⟩
        rcases List.mem_cons.1 hy with hy | hy
        · rw [hy]; exact h
        · exact h2 y hy
      · rintro ⟨pre, r, post, h1, h2, h3, h4, h5⟩
        cases pre with
        | nil =>
          have hx := (List.cons.inj h1).1
          rw [hx, ← h3] at h
          rcases h with h | h
          · exact absurd h (not_lt.2 h4)
          · exact absurd h (not_lt.2 h5)
        | cons y pre => exact ⟨pre, r, post, (List.cons.inj h1).2, fun z hz => h2 z (List.mem_cons_of_mem _ hz), h3, h4, h5⟩
    · rw [if_neg h]
      have h' := not_or.1 h
      constructor
      · intro e
        have e := Option.some.inj e
        exact ⟨[], x, rs, rfl, fun y hy => (by cases hy), e.symm, e ▸ not_lt.1 h'.1, e ▸ not_lt.1 h'.2⟩
      · rintro ⟨pre, r, post, h1, h2, h3, h4, h5⟩
        cases pre with
        | nil => rw [(List.cons.inj h1).1, h3]
        | cons y pre =>
          rw [(List.cons.inj h1).1] at h
          exact absurd (h2 y List.mem_cons_self) h

/-- **law of the polynomial picker**: for a uniformly distributed random number the probability that its t' is accepted and at most `x` is the integral of
the exponential distribution between the minimum and `x`; so an accepted t' follows this exponential between the limits. -/
theorem poly_law (slope lo x : ℝ) (hs : 0 < slope) (hlo : 0 ≤ lo) :
    volume {r | (0 < r ∧ r < 1) ∧ lo ≤ expT slope r ∧ expT slope r ≤ x} = ENNReal.ofReal (∫ u in lo..x, slope * Real.exp (-slope * u)) := by
  have hI : ∫ u in lo..x, slope * Real.exp (-slope * u) = Real.exp (-slope * lo) - Real.exp (-slope * x) := by
    have hd : ∀ u, HasDerivAt (fun u => -Real.exp (-slope * u)) (slope * Real.exp (-slope * u)) u := by
      intro u
      have h1 : HasDerivAt (fun u : ℝ => -slope * u) (-slope) u := by simpa using (hasDerivAt_id u).const_mul (-slope)
      have h2 := h1.exp.neg
      have h3 : -(Real.exp (-slope * u) * -slope) = slope * Real.exp (-slope * u) := by ring
      rw [h3] at h2
      exact h2
    rw [intervalIntegral.integral_eq_sub_of_hasDerivAt (fun u _ => hd u) (Continuous.intervalIntegrable (by fun_prop) _ _)]
    ring
  rw [hI]
  have e0 : Real.exp (-slope * lo) ≤ 1 := Real.exp_le_one_iff.2 (by nlinarith)
  have h1 : {r | (0 < r ∧ r < 1) ∧ lo ≤ expT slope r ∧ expT slope r ≤ x} ⊆ Icc (Real.exp (-slope * x)) (Real.exp (-slope * lo)) := by
    rintro r ⟨⟨r0, r1⟩, a, b⟩
    unfold expT at a b
    rw [le_div_iff₀ hs] at a
    rw [div_le_iff₀ hs] at b
    constructor
    · rw [← Real.exp_log r0]
      exact Real.exp_le_exp.2 (by linarith)
    · rw [← Real.exp_log r0]
      exact Real.exp_le_exp.2 (by linarith)
  have h2 : Ioo (Real.exp (-slope * x)) (Real.exp (-slope * lo)) ⊆ {r | (0 < r ∧ r < 1) ∧ lo ≤ expT slope r ∧ expT slope r ≤ x} := by
    rintro r ⟨a, b⟩
    have r0 : 0 < r := (Real.exp_pos _).trans a
    have a' := (Real.lt_log_iff_exp_lt r0).2 a
    have b' := (Real.log_lt_iff_lt_exp r0).2 b
    refine ⟨⟨r0, lt_of_lt_of_le b e0⟩, ?_, ?_⟩
    · unfold expT
      rw [le_div_iff₀ hs]
      linarith
    · unfold expT
      rw [div_le_iff₀ hs]
      linarith
  refine le_antisymm ((measure_mono h1).trans ?_) (le_trans ?_ (measure_mono h2))
  · rw [Real.volume_Icc]
  · rw [Real.volume_Ioo]

/-- **defect**: this picker needs positive slopes, the exponential picker negative ones; with a slope that is not positive (and a minimum of t' that is not
negative) no random number is ever accepted: the call does not return. -/
theorem poly_never (s : PolyPicker) (h : s.ranges.initialized = true) (m : ℝ) (hs : polynomial s.slope m ≤ 0) (h0 : 0 ≤ s.ranges.tLo) (rs : List ℝ)
    (hr : Uniforms rs) : s.pickT m rs = some none := by
  unfold PolyPicker.pickT
  rw [if_neg (by rw [h]; decide)]
  split_ifs with hz
  · rfl
  · congr 1
    cases hL : rejectLoop (polynomial s.slope m) s.ranges.tLo s.ranges.tHi rs with
    | none => rfl
    | some t =>
      exfalso
      obtain ⟨pre, r, post, h1, _, h3, h4, _⟩ := (rejectLoop_iff _ _ _ _ _).1 hL
      have hr' := hr r (by rw [h1]; simp)
      have : expT (polynomial s.slope m) r < 0 :=
        div_neg_of_pos_of_neg (neg_pos.2 (Real.log_neg hr'.1 hr'.2)) (lt_of_le_of_ne hs hz)
      linarith

/-! ### examples -/

/-- settings: mass 1 to 2, t' 0.5 to 1.5; two sums of two exponentials. -/
noncomputable def exSettings : Group := fun n =>
  if n = "massMin" then some (.float 1) else if n = "massMax" then some (.float 2) else if n = "tPrimeMin" then some (.float (1 / 2))
  else if n = "tPrimeMax" then some (.float (3 / 2)) else if n = "invariantMasses" then some (.array [.float 1, .float 2])
  else if n = "tSlopes" then some (.list [.array [.float (-8), .float 1, .float (-2)], .array [.float (-6), .float 3, .float (-4)]]) else none

noncomputable def exPicker : ExpPicker := ⟨⟨1, 2, 1 / 2, 3 / 2, true⟩, [(1, [-8, 1, -2]), (2, [-6, 3, -4])], 2⟩

theorem exSettings_init : (ExpPicker.new 1000).init exSettings = .ok (true, exPicker) := by
  refine (exp_init_iff _ _ _).2 ⟨rfl, ⟨1, 2, 1 / 2, 3 / 2, false⟩, false, [(1, [-8, 1, -2]), (2, [-6, 3, -4])], 2,
    ⟨rfl, rfl, by norm_num, Or.inl rfl, Or.inl rfl, by norm_num⟩, ⟨rfl, _, rfl, .cons rfl (.cons rfl .nil)⟩, ⟨by simp, fun h => (by cases h), fun _ e he => ?_,
      fun e he => ?_, fun e he => ?_⟩, ?_⟩
  · cases Option.some.inj he
    rfl
  · fin_cases he <;> rfl
  · intro j hj
    fin_cases he
    all_goals
      interval_cases j
      · exact ⟨by norm_num, fun h => absurd h (lt_irrefl 0)⟩
      · exact ⟨by norm_num, fun _ => by norm_num⟩
  · unfold exPicker insertAll insertSlope
    norm_num [insertSlope, ExpPicker.new]

theorem exPicker_ready : Ready exPicker := by
  obtain ⟨numbers, es, _, hS, _, _, h⟩ := init_ready 1000 exPicker exSettings exSettings_init
  refine h fun e he e' he' => ?_
  obtain ⟨cs, hc, hT⟩ := hS.hslopes
  have : cs = [.array [.float (-8), .float 1, .float (-2)], .array [.float (-6), .float 3, .float (-4)]] := (Cfg.list.inj (Option.some.inj hc)).symm
  have hlen : ∀ e ∈ es, e.2.length = 3 := by
    intro e he
    rw [this] at hT
    have hm : e.2 ∈ es.map Prod.snd := List.mem_map_of_mem he
    generalize es.map Prod.snd = ps at hT hm
    cases numbers with
    | true =>
      cases hT with
      | cons h1 h2 => obtain ⟨x, hx, _⟩ := h1; cases hx
    | false =>
      cases hT with
      | cons h1 h2 =>
        cases h2 with
        | cons h3 h4 =>
          cases h4
          have l1 := congrArg List.length (Cfg.array.inj h1)
          have l3 := congrArg List.length (Cfg.array.inj h3)
          rw [List.length_map] at l1 l3
          rcases List.mem_cons.1 hm with hm | hm
          · rw [hm, ← l1]; rfl
          · rw [List.mem_singleton.1 hm, ← l3]; rfl
  rw [hlen e he, hlen e' he']

/-- at mass 1.5 the parameters of the example are the means. -/
theorem exPicker_params : ∃ p, paramsFor exPicker.slopes (3 / 2) = .ok p ∧ p = [-7, 2, -3] := by
  refine ⟨_, (paramsFor_between exPicker.slopes exPicker_ready.hsorted 0 (1, [-8, 1, -2]) (2, [-6, 3, -4]) rfl rfl (3 / 2) (by norm_num)
    (by norm_num)).trans (if_neg (not_not.2 rfl)), ?_⟩
  norm_num

/-- the first mass of the example cannot be used. -/
theorem exPicker_first : exPicker.pickT 0 1 [1 / 2] = .ub := by
  have h : paramsFor exPicker.slopes 1 = .ub := paramsFor_first (1, [-8, 1, -2]) (2, [-6, 3, -4]) [] exPicker_ready.hsorted
  unfold ExpPicker.pickT
  rw [if_neg (by decide), if_neg (by simp [exPicker]), h]
  rfl

/-- **defect**: only the number of exponentials of later entries is compared with that of the first, and an unpaired last parameter does not change it: the
settings with three and four parameters are accepted, and the program ends when a mass between them is used. -/
theorem even_entry : ∃ (g : Group) (s : ExpPicker), (ExpPicker.new 1000).init g = .ok (true, s) ∧ ∀ eps r rs, 0 < r ∧ r < 1 → s.pick eps r rs = .terminate := by
  obtain ⟨es, hes⟩ : ∃ es : List (ℝ × List ℝ), es = [(1, [-8, 1, -2]), (2, [-6, 3, -4, 5])] := ⟨_, rfl⟩
  refine ⟨fun n => if n = "invariantMasses" then some (.array [.float 1, .float 2])
    else if n = "tSlopes" then some (.list [.array [.float (-8), .float 1, .float (-2)], .array [.float (-6), .float 3, .float (-4), .float 5]])
    else exSettings n, ⟨⟨1, 2, 1 / 2, 3 / 2, true⟩, es, 2⟩, (exp_init_iff _ _ _).2 ⟨rfl, ⟨1, 2, 1 / 2, 3 / 2, false⟩, false, es, 2,
    ⟨rfl, rfl, by norm_num, Or.inl rfl, Or.inl rfl, by norm_num⟩, ?_, ⟨by simp [hes], fun h => (by cases h), fun _ e he => ?_,
      fun e he => ?_, fun e he => ?_⟩, ?_⟩, ?_⟩
  · rw [hes]
    exact ⟨rfl, _, rfl, .cons rfl (.cons rfl .nil)⟩
  · rw [hes] at he
    cases Option.some.inj he
    rfl
  · rw [hes] at he
    fin_cases he <;> norm_num
  · rw [hes] at he
    intro j hj
    fin_cases he
    all_goals
      interval_cases j
      · exact ⟨by norm_num, fun h => absurd h (lt_irrefl 0)⟩
      · exact ⟨by norm_num, fun _ => by norm_num⟩
  · rw [hes]
    unfold insertAll insertSlope
    norm_num [insertSlope, ExpPicker.new]
  · intro eps r rs hr
    have hsort : Sorted es := by
      rw [hes]
      refine List.pairwise_cons.2 ⟨fun b hb => ?_, List.pairwise_singleton _ _⟩
      rw [List.mem_singleton.1 hb]
      norm_num
    have h : paramsFor es (1 + (2 - 1) * r) = .terminate := by
      refine (paramsFor_between es hsort 0 (1, [-8, 1, -2]) (2, [-6, 3, -4, 5]) (by rw [hes]; rfl) (by rw [hes]; rfl) _ ?_ ?_).trans ?_
      · linarith [hr.1]
      · linarith [hr.2]
      · exact if_pos (by decide)
    unfold ExpPicker.pick
    rw [if_neg (by simp)]
    dsimp only
    have h2 : (⟨⟨1, 2, 1 / 2, 3 / 2, true⟩, es, 2⟩ : ExpPicker).pickT eps (1 + (2 - 1) * r) rs = .terminate := by
      unfold ExpPicker.pickT
      rw [if_neg (by simp), if_neg (by simp [hes]), h]
      rfl
    rw [h2]
    rfl

/-- a picker with minimum 7: nothing can be picked although the settings are accepted. -/
theorem never_example (rs : List ℝ) (hr : Uniforms rs) : (⟨⟨1, 2, 7, 8, true⟩, [(1, [-10, 1, -10])], 2⟩ : ExpPicker).pickT (1 / 2 ^ 52) 1 rs = .ok none := by
  have hsig : Signs 2 [-10, 1, -10] := by
    intro j hj
    interval_cases j
    · exact ⟨by norm_num, fun h => absurd h (lt_irrefl 0)⟩
    · exact ⟨by norm_num, fun _ => by norm_num⟩
  have hf := falling_of_signs 2 [-10, 1, -10] rfl rfl hsig
  have hmem : ∀ e ∈ ([(1, [-10, 1, -10])] : List (ℝ × List ℝ)), e.2 = [-10, 1, -10] := fun e he => by rw [List.mem_singleton.1 he]
  have hR : Ready ⟨⟨1, 2, 7, 8, true⟩, [(1, [-10, 1, -10])], 2⟩ := by
    refine ⟨rfl, by norm_num, by norm_num, by simp, List.pairwise_singleton _ _, fun e he => ?_, by norm_num, fun e he => ?_⟩
    · rw [hmem e he]; rfl
    · rw [hmem e he]; exact hsig
  refine pickT_never _ _ hR (by norm_num) 1 [-10, 1, -10] rfl rfl hf 10 10 (by norm_num) (by norm_num) (fun e he => ?_) (by norm_num) (by norm_num) (by norm_num)
    (by norm_num) ?_ rs hr
  · have : exponentials [-10, 1, -10] = [(1, -10), (1, -10)] := rfl
    rw [this] at he
    fin_cases he <;> norm_num
  · have : Real.exp (-10 * (7 - 50 / 10)) ≤ 1 / 2 := by
      have h1 : Real.exp (-10 * (7 - 50 / 10)) ≤ Real.exp (-1) := Real.exp_le_exp.2 (by norm_num)
      have h2 : Real.exp (-1) ≤ 1 / 2 := by
        rw [Real.exp_neg, inv_eq_one_div]
        exact one_div_le_one_div_of_le (by norm_num) (by linarith [Real.add_one_le_exp (1 : ℝ)])
      linarith
    have h3 : (10 : ℝ) * (50 / 10 * (1 / 2 ^ 52)) ≤ 1 / 20 := by norm_num
    refine h3.trans ?_
    rw [le_div_iff₀ (by norm_num)]
    linarith

/-- **defect**: slopes read before `init` failed stay in the picker, and win over the entries of the next `init`. -/
theorem stale_slopes (s s' : ExpPicker) (g : Group) (h : s.init g = .ok (true, s')) (hs : Sorted s.slopes) (m : ℝ) (p : List ℝ)
    (hp : valueAt s.slopes m = some p) : valueAt s'.slopes m = some p := by
  obtain ⟨_, r, numbers, es, n, _, _, _, rfl⟩ := (exp_init_iff _ _ _).1 h
  exact (insertAll_valueAt es s.slopes hs m).trans (by rw [hp]; rfl)

end Rpwa.Pick

import Verif.Props.Refit
/-! # C90: value, fixed parameters and covariance matrix of a stored fit -/
namespace Rpwa.Refit

open Rpwa.Lik Rpwa.Fit Rpwa.PwaFit Rpwa.Attempts

/-- the parameters of a likelihood that has been set up. -/
theorem params_spec (a : SetupInput) (hdiag : a.DiagOk) (order : List String) (s : LikObj) (hs : Succeeds LikObj.new (a.protocol order) s)
    (hflat : ∀ i, a.IsWave i → a.waveName i ≠ "flat") :
    ∃ comp : List Comp, comp.Nodup ∧ (∀ c, c ∈ comp ↔ Free a.rank a.waves.nW c) ∧ s.pars.nmbPars = comp.length + 1 ∧
      s.pars.params.length = s.pars.nmbPars ∧
      (∀ (par : ℕ → ℝ) (k : ℕ) (c : Comp), comp[k]? = some c → part ((copyFromParArray a.rank a.waves.nW par).1 c.1) c.2 = par k) ∧
      (∀ par s b, ¬ Free a.rank a.waves.nW (s, b) → part ((copyFromParArray a.rank a.waves.nW par).1 s) b = 0) ∧
      (∀ (k : ℕ) (c : Comp), comp[k]? = some c → ∃ p : FitPar, s.pars.params[k]? = some p ∧ p.waveName = a.waveName c.1.2 ∧ p.rank = c.1.1 ∧
        p.realPart = c.2 ∧ (p.fixed = true ↔
          (a.waves.threshold c.1.2.1 c.1.2.2 ≠ 0 ∧ a.mass ≤ a.waves.threshold c.1.2.1 c.1.2.2) ∨ a.Empty c.1.2)) ∧
      (∃ p : FitPar, s.pars.params[comp.length]? = some p ∧ p.waveName = "flat" ∧ p.fixed = false ∧ p.realPart = true) ∧
      ((∀ c ∈ comp, a.Empty c.1.2 → a.waves.threshold c.1.2.1 c.1.2.2 ≠ 0 ∧ a.mass ≤ a.waves.threshold c.1.2.1 c.1.2.2) →
        s.pars.nmbParsFixed = (s.pars.params.filter (·.fixed)).length) := by
  obtain ⟨d, N, hd, hN, hok, hall, rfl⟩ := a.protocol_spec hdiag order s hs
  have hinj : ∀ i j, a.IsWave i → a.IsWave j → a.waveName i = a.waveName j → i = j := by
    intro i j hi hj hij
    have h1 := a.index_name order hall i hi
    have h2 := a.index_name order hall j hj
    rw [hij, h2] at h1
    exact (Option.some.inj h1).symm
  have h0 : a.waves.nW 0 + a.waves.nW 1 ≠ 0 := by
    obtain ⟨r, h1, h2⟩ := buildParDataStruct_returns a.waves a.rank a.mass
    rw [hd.hbuilt] at h1; cases h1
    intro h0; simpa using h2.2 h0
  obtain ⟨comp, c1, c2, d', hd', c3, c4, c5, c6, c7, c8, c9, c10, _⟩ := parameters_enumerate_components a.waves a.rank a.mass h0
  have hdd : d' = d := by
    have := hd.hbuilt
    rw [hd'] at this
    cases this; rfl
  subst hdd
  have hp : (a.final d' order N).pars = { d' with params := (d'.params.map fun p => if p.waveName ∈ order.filter a.emptyName then { p with fixed := true } else p) } := by
    show (order.filter a.emptyName).foldl fixWave d' = _
    rw [SetupInput.fixWaves_eq]
  have hmem := a.mem_fixed order N hok hall
  have hwave : ∀ c ∈ comp, a.IsWave c.1.2 := by
    intro c hc
    have := (c2 c).1 hc
    exact ⟨this.2.1, this.2.2.1⟩
  have hemp : ∀ c ∈ comp, (a.waveName c.1.2 ∈ order.filter a.emptyName ↔ a.Empty c.1.2) := by
    intro c hc
    rw [hmem]
    constructor
    · rintro ⟨i, h1, h2, h3⟩
      rw [← hinj i c.1.2 h1 (hwave c hc) h2]; exact h3
    · intro h; exact ⟨_, hwave c hc, rfl, h⟩
  have hfl : ¬ "flat" ∈ order.filter a.emptyName := by
    rw [hmem]
    rintro ⟨i, h1, h2, _⟩
    exact hflat i h1 h2
  rw [hp]
  refine ⟨comp, c1, c2, c3, by simp only [List.length_map]; exact c4, c10, c9, ?_, ?_, ?_⟩
  · intro k c hk
    obtain ⟨p, p1, p2, p3, p4, p5, p6⟩ := c5 k c hk
    have hc := List.mem_of_getElem? hk
    have hnm : p.waveName = a.waveName c.1.2 := p2
    refine ⟨_, by simp only [List.getElem?_map, p1, Option.map_some]; rfl, ?_⟩
    by_cases he : a.Empty c.1.2
    · rw [if_pos (by rw [hnm]; exact (hemp c hc).2 he)]
      exact ⟨hnm, p3, p5, ⟨fun _ => .inr he, fun _ => rfl⟩⟩
    · rw [if_neg (by rw [hnm]; exact fun h' => he ((hemp c hc).1 h'))]
      refine ⟨hnm, p3, p5, p6.trans ⟨fun h' => .inl h', fun h' => h'.resolve_right he⟩⟩
  · obtain ⟨p, p1, p2, p3, p4⟩ := c6
    refine ⟨p, ?_, p2, p3, p4⟩
    simp only [List.getElem?_map, p1, Option.map_some]
    rw [if_neg (by rw [p2]; exact hfl)]
  · intro hcov
    have hid : (d'.params.map fun p => if p.waveName ∈ order.filter a.emptyName then { p with fixed := true } else p) = d'.params := by
      conv_rhs => rw [← List.map_id d'.params]
      apply List.map_congr_left
      intro p hpm
      obtain ⟨k, hk⟩ := List.getElem?_of_mem hpm
      by_cases hn : p.waveName ∈ order.filter a.emptyName
      · rw [if_pos hn]
        have hkl := (List.getElem?_eq_some_iff.1 hk).1
        rw [c4, c3] at hkl
        rcases Nat.lt_succ_iff_lt_or_eq.1 hkl with hkl | hkl
        · obtain ⟨c, hc⟩ : ∃ c, comp[k]? = some c := ⟨_, List.getElem?_eq_getElem hkl⟩
          obtain ⟨q, q1, q2, q3, q4, q5, q6⟩ := c5 k c hc
          rw [hk] at q1; cases q1
          have hcm := List.mem_of_getElem? hc
          have hnm : p.waveName = a.waveName c.1.2 := q2
          rw [hnm] at hn
          have hf := q6.2 (hcov c hcm ((hemp c hcm).1 hn))
          obtain ⟨p1, p2, p3, p4, p5⟩ := p
          simp only at hf
          rw [hf]; rfl
        · obtain ⟨q, q1, q2, _⟩ := c6
          rw [hkl] at hk
          rw [hk] at q1; cases q1
          rw [q2] at hn
          exact absurd hn hfl
      · rw [if_neg hn]; rfl
    simp only [hid]
    exact c7

theorem comp_unique (rank : ℕ) (nW : ℕ → ℕ) (a b : List Comp) (ha : a.Nodup) (hb : b.Nodup) (ha2 : ∀ c, c ∈ a ↔ Free rank nW c)
    (hb2 : ∀ c, c ∈ b ↔ Free rank nW c)
    (ha3 : ∀ (par : ℕ → ℝ) (k : ℕ) (c : Comp), a[k]? = some c → part ((copyFromParArray rank nW par).1 c.1) c.2 = par k)
    (hb3 : ∀ (par : ℕ → ℝ) (k : ℕ) (c : Comp), b[k]? = some c → part ((copyFromParArray rank nW par).1 c.1) c.2 = par k) : a = b := by
  have hp : a.Perm b := by
    rw [List.perm_ext_iff_of_nodup ha hb]
    intro c; rw [ha2, hb2]
  apply List.ext_getElem?
  intro k
  by_cases hk : k < a.length
  · obtain ⟨c, hc⟩ : ∃ c, a[k]? = some c := ⟨_, List.getElem?_eq_getElem hk⟩
    obtain ⟨j, hj⟩ := List.getElem?_of_mem ((hb2 c).2 ((ha2 c).1 (List.mem_of_getElem? hc)))
    have e1 := ha3 (fun i => (i : ℝ)) k c hc
    have e2 := hb3 (fun i => (i : ℝ)) j c hj
    have : k = j := by exact_mod_cast e1.symm.trans e2
    subst this
    rw [hc, hj]
  · rw [List.getElem?_eq_none (by omega), List.getElem?_eq_none (by rw [← hp.length_eq]; omega)]

section
variable {inp : SetupInput} {N : ℕ} {desc : Name → Option ℤ} {s : LikObj} (hF : FitOf inp N desc s)
  (o : Options) (bin : List (Name × ℝ × ℝ)) (par : ℕ → ℝ) (v : ℝ) (cov : ℕ → ℕ → ℝ) (c h : Bool)
include hF

theorem params_names (r : FitResult) (order : List String) (s' : LikObj) (hs' : Succeeds LikObj.new ((backInput inp r).protocol order) s') :
    ∃ comp : List Comp, comp.Nodup ∧ (∀ c, c ∈ comp ↔ Free inp.rank inp.waves.nW c) ∧ s.pars.nmbPars = comp.length + 1 ∧
      s'.pars.nmbPars = s.pars.nmbPars ∧ s.pars.params.length = s.pars.nmbPars ∧ s'.pars.params.length = s.pars.nmbPars ∧
      (∀ (par : ℕ → ℝ) (k : ℕ) (c : Comp), comp[k]? = some c → part ((copyFromParArray inp.rank inp.waves.nW par).1 c.1) c.2 = par k) ∧
      (∀ par s b, ¬ Free inp.rank inp.waves.nW (s, b) → part ((copyFromParArray inp.rank inp.waves.nW par).1 s) b = 0) ∧
      (∀ (k : ℕ) (c : Comp), comp[k]? = some c → ∃ p p' : FitPar, s.pars.params[k]? = some p ∧ s'.pars.params[k]? = some p' ∧
        p.waveName = inp.waveName c.1.2 ∧ p'.waveName = p.waveName ∧ p'.parName = p.parName ∧
        (p.fixed = true ↔ (inp.waves.threshold c.1.2.1 c.1.2.2 ≠ 0 ∧ inp.mass ≤ inp.waves.threshold c.1.2.1 c.1.2.2) ∨ inp.Empty c.1.2) ∧
        (p'.fixed = true ↔ (threshold r (inp.waveName c.1.2).toList ≠ 0 ∧ massBinCenter r ≤ threshold r (inp.waveName c.1.2).toList) ∨
          inp.Empty c.1.2)) ∧
      (∃ p p' : FitPar, s.pars.params[comp.length]? = some p ∧ s'.pars.params[comp.length]? = some p' ∧ p.waveName = "flat" ∧
        p'.waveName = "flat" ∧ p'.parName = p.parName ∧ p.fixed = false ∧ p'.fixed = false) ∧
      ((∀ c ∈ comp, inp.Empty c.1.2 → threshold r (inp.waveName c.1.2).toList ≠ 0 ∧ massBinCenter r ≤ threshold r (inp.waveName c.1.2).toList) →
        s'.pars.nmbParsFixed = (s'.pars.params.filter (·.fixed)).length) := by
  obtain ⟨order0, hs⟩ := hF.hset
  have hS := backInput_same inp r
  obtain ⟨comp, c1, c2, c3, c4, c5, c6, c7, c8, _⟩ := params_spec inp hF.hdiag order0 s hs hF.noFlat
  obtain ⟨comp', b1, b2, b3, b4, b5, b6, b7, b8, b9⟩ := params_spec (backInput inp r) (hS.diag.2 hF.hdiag) order s' hs' fun i hi => by
    rw [hS.waveName]; exact hF.noFlat i ((hS.isWave i).1 hi)
  have hrk : (backInput inp r).rank = inp.rank := rfl
  rw [hS.hnW, hrk] at b2 b5 b6
  have hcc : comp' = comp := comp_unique inp.rank inp.waves.nW comp' comp b1 c1 b2 c2 b5 c5
  subst hcc
  have hthr : ∀ c ∈ comp', (backInput inp r).waves.threshold c.1.2.1 c.1.2.2 = threshold r (inp.waveName c.1.2).toList := by
    intro c hc
    have := (c2 c).1 hc
    exact (backList_waves inp fun n => threshold r n.toList).2.2 c.1.2.1 c.1.2.2 this.2.2.1
  refine ⟨comp', c1, c2, c3, by rw [b3, c3], c4, by rw [b4, b3, c3], c5, c6, ?_, ?_, ?_⟩
  · intro k c hk
    obtain ⟨p, p1, p2, p3, p4, p5⟩ := c7 k c hk
    obtain ⟨p', q1, q2, q3, q4, q5⟩ := b7 k c hk
    rw [hS.waveName] at q2
    refine ⟨p, p', p1, q1, p2, q2.trans p2.symm, ?_, p5, ?_⟩
    · unfold FitPar.parName
      rw [q2, p2, q3, p3, q4, p4]
    · rw [hthr c (List.mem_of_getElem? hk), hS.empty] at q5
      exact q5
  · obtain ⟨p, p1, p2, p3, p4⟩ := c8
    obtain ⟨p', q1, q2, q3, q4⟩ := b8
    refine ⟨p, p', p1, q1, p2, q2, ?_, p3, q3⟩
    unfold FitPar.parName
    simp [q2, p2, q4, p4]
  · intro hc
    apply b9
    intro c hcm he
    rw [hthr c hcm]
    exact hc c hcm ((hS.empty _).1 he)

/-- the parameters of the likelihood that is set up again are those of the fit. -/
theorem parsFor_eq (order : List String) (s' : LikObj)
    (hs' : Succeeds LikObj.new ((backInput inp (storedFit inp s o bin par v cov c h)).protocol order) s') :
    (parsFor s' (storedFit inp s o bin par v cov c h)).length = s.pars.nmbPars ∧
    ∀ k < s.pars.nmbPars, (parsFor s' (storedFit inp s o bin par v cov c h)).getD k 0 = par k := by
  obtain ⟨comp, c1, c2, c3, c4, c5, c6, c7, _, c8, c9, _⟩ := params_names hF (storedFit inp s o bin par v cov c h) order s' hs'
  have key : parsFor s' (storedFit inp s o bin par v cov c h) = parsOf (likOf s inp.waves.threshold) (storedFit inp s o bin par v cov c h) := by
    apply List.ext_getElem?
    intro k
    show (List.map _ s'.pars.params)[k]? = (List.map _ s.pars.params)[k]?
    rw [List.getElem?_map, List.getElem?_map]
    by_cases hk : k < s.pars.nmbPars
    · rw [c3] at hk
      rcases Nat.lt_succ_iff_lt_or_eq.1 hk with hk | hk
      · obtain ⟨p, p', p1, p2, _, _, p3, _⟩ := c8 k _ (List.getElem?_eq_getElem hk)
        rw [p1, p2, Option.map_some, Option.map_some, p3]
      · subst hk
        obtain ⟨p, p', p1, p2, _, _, p3, _⟩ := c9
        rw [p1, p2, Option.map_some, Option.map_some, p3]
    · rw [List.getElem?_eq_none (by omega), List.getElem?_eq_none (by omega)]
  rw [key]
  exact parsOf_fit (likOf s inp.waves.threshold) inp.mass hF.is_matched hF.distinct hF.hplain o bin par v cov c h

/-- **C90, value.** `likelihoodPointCalculator` prints the value that is stored with the fit, if it is the value of the likelihood at the
parameters of the fit (true of both fit functions). -/
theorem likelihood_point (hv : v = s.data.doEval par) :
    likelihoodPoint (filesOf inp) desc [storedFit inp s o bin par v cov true h] = .ok (some v) ∧
    (storedFit inp s o bin par v cov true h).logLikelihood = v := by
  refine ⟨?_, rfl⟩
  obtain ⟨s', e1, ⟨order, hs'⟩, e2, _, _, _, _, _, e7⟩ := rebuild_ok hF o bin par v cov true h
  obtain ⟨_, k2⟩ := parsFor_eq hF o bin par v cov true h order s' hs'
  have hg : getFitResultFromFile [storedFit inp s o bin par v cov true h] = some (storedFit inp s o bin par v cov true h) := rfl
  unfold likelihoodPoint
  simp only [hg, e1, Outcome.ok_bind]
  unfold LikObj.doEval
  rw [e7]
  simp only [Bool.not_true, Bool.false_eq_true, if_false, Outcome.ok_bind]
  congr 2
  rw [e2]
  obtain ⟨comp, hl⟩ := layout_of_matches (likOf s inp.waves.threshold).fn hF.is_matched
  have hc : copyFromParArray s.data.rank s.data.nW (fun i => (parsFor s' (storedFit inp s o bin par v cov true h)).getD i 0) =
    copyFromParArray s.data.rank s.data.nW par := copyFrom_congr hl _ par k2
  refine Eq.trans ?_ hv.symm
  unfold LikData.doEval
  rw [hc]

omit hF in
theorem thr_iff (r : FitResult) (hm : 0 < massBinCenter r) (w : Name) :
    (threshold r w ≠ 0 ∧ massBinCenter r ≤ threshold r w) ↔ Vanishes r w := by
  rw [← thresholded_iff]
  unfold threshold
  cases thresholded r w with
  | false => simp
  | true =>
    simp only [if_true, iff_true]
    constructor
    · exact (mul_pos (by norm_num) hm).ne'
    · linarith only [hm]

/-- a wave vanishes in the result exactly if all its production amplitudes are zero. -/
theorem vanishes_iff (i : WaveIx) (hi : inp.IsWave i) :
    Vanishes (storedFit inp s o bin par v cov c h) (inp.waveName i).toList ↔ ∀ k < inp.rank, s.data.amps par (k, i) = 0 := by
  obtain ⟨e1, e2, e3, e4, e5, e6⟩ := hF.lik
  have hst := stored_of_fill_slots (likOf s inp.waves.threshold) inp.mass hF.is_matched o bin par v cov c h
  have f1 : (likOf s inp.waves.threshold).fn = s.data := rfl
  rw [f1] at hst
  set sl := ampSlots s.data.rank s.data.nW with hsl
  have hnm : ∀ j t, sl[j]? = some t → (storedFit inp s o bin par v cov c h).prodAmpNames.getD j [] = (ampName inp.waves t).toList := by
    intro j t hj
    have : (storedFit inp s o bin par v cov c h).prodAmpNames = _ := hst.hnames
    rw [this, List.getD_eq_getElem?_getD, List.getElem?_append_left (by simpa using (List.getElem?_eq_some_iff.1 hj).1), List.getElem?_map, hj, e5]
    rfl
  have hsz : (storedFit inp s o bin par v cov c h).nmbProdAmps = sl.length + 1 := hst.hsize.1
  constructor
  · intro hv k hk
    by_cases hf : Free s.data.rank s.data.nW ((k, i), true)
    · obtain ⟨j, hj⟩ := List.getElem?_of_mem ((hst.hfree (k, i)).2 hf)
      have hjl := (List.getElem?_eq_some_iff.1 hj).1
      have := hv j (by rw [hsz]; omega) (by rw [hnm j _ hj, waveNameOf_ampName]; rfl)
      rw [← this]
      exact (hst.hamps j _ hj).symm
    · apply complex_ext_part
      intro b
      have hz : part (0 : ℂ) b = 0 := by unfold part; cases b <;> simp
      rw [hz]
      obtain ⟨comp, hl⟩ := layout_of_matches (likOf s inp.waves.threshold).fn hF.is_matched
      apply hl.fromZero
      intro hb
      apply hf
      exact ⟨hb.1, hb.2.1, hb.2.2.1, hb.2.2.2.1, fun h => by cases h⟩
  · intro hz j hj hw
    rw [hsz] at hj
    rcases Nat.lt_succ_iff_lt_or_eq.1 hj with hj | hj
    · obtain ⟨t, ht⟩ : ∃ t, sl[j]? = some t := ⟨_, List.getElem?_eq_getElem hj⟩
      have hfr := (hst.hfree t).1 (List.mem_of_getElem? ht)
      rw [hnm j t ht, waveNameOf_ampName] at hw
      have hti : t.2 = i := by
        refine inp.waveName_inj hF.husable.hnodup t.2 i ⟨hfr.2.1, ?_⟩ hi (String.toList_injective hw)
        have h3 : t.2.2 < s.data.nW t.2.1 := hfr.2.2.1
        rw [e2] at h3
        exact h3
      have := hz t.1 (by have h3 : t.1 < s.data.rank := hfr.1; rw [e1] at h3; exact h3)
      rw [← hti] at this
      exact (hst.hamps j t ht).trans this
    · exfalso
      have hfl : (storedFit inp s o bin par v cov c h).prodAmpNames.getD j [] = "V_flat".toList := by
        have : (storedFit inp s o bin par v cov c h).prodAmpNames = _ := hst.hnames
        rw [this, List.getD_eq_getElem?_getD, List.getElem?_append_right (by simp [hj])]
        simp [hj]
      rw [hfl] at hw
      have h2 : waveNameOf "V_flat".toList = "flat".toList := by decide
      rw [h2] at hw
      exact hF.noFlat i hi (String.toList_injective hw.symm)

/-- fixed parameters are zero at the end of a fit; so the waves to which they belong vanish. -/
theorem fixed_vanishes (hfix : ∀ k < s.pars.nmbPars, LikData.fixedAt s.pars k = true → par k = 0) (i : WaveIx) (hi : inp.IsWave i)
    (hx : (inp.waves.threshold i.1 i.2 ≠ 0 ∧ inp.mass ≤ inp.waves.threshold i.1 i.2) ∨ inp.Empty i) :
    ∀ k < inp.rank, s.data.amps par (k, i) = 0 := by
  obtain ⟨e1, e2, e3, e4, e5, e6⟩ := hF.lik
  obtain ⟨order, hs⟩ := hF.hset
  obtain ⟨comp, c1, c2, c3, c4, c5, c6, c7, _⟩ := params_spec inp hF.hdiag order s hs hF.noFlat
  intro k hk
  apply complex_ext_part
  intro b
  have hz : part (0 : ℂ) b = 0 := by unfold part; cases b <;> simp
  rw [hz]
  unfold LikData.amps
  rw [e1, e2]
  by_cases hf : Free inp.rank inp.waves.nW ((k, i), b)
  · obtain ⟨j, hj⟩ := List.getElem?_of_mem ((c2 _).2 hf)
    rw [c5 par j _ hj]
    have hjl := (List.getElem?_eq_some_iff.1 hj).1
    apply hfix j (by omega)
    obtain ⟨p, p1, _, _, _, p5⟩ := c7 j _ hj
    unfold LikData.fixedAt
    rw [p1]
    exact p5.2 hx
  · exact c6 par _ b hf

/-- **C90, parameters.** For a mass bin with positive centre, the likelihood that is set up again has the parameters of the fitted one, in the
same order and with the same names; a parameter is fixed exactly if all production amplitudes of its wave are zero in the result, or if the wave is
empty. -/
theorem refit_parameters (hm : 0 < centre bin) :
    ∃ s', rebuild (filesOf inp) desc (storedFit inp s o bin par v cov c h) = .ok (some s') ∧ s'.data = s.data ∧
      s'.pars.params.map (·.parName) = s.pars.params.map (·.parName) ∧
      ∀ (k : ℕ) (p : FitPar), s'.pars.params[k]? = some p → (p.fixed = true ↔
        ∃ i, inp.IsWave i ∧ p.waveName = inp.waveName i ∧ ((∀ j < inp.rank, s.data.amps par (j, i) = 0) ∨ inp.Empty i)) := by
  obtain ⟨s', e1, ⟨order, hs'⟩, e2, _⟩ := rebuild_ok hF o bin par v cov c h
  obtain ⟨comp, c1, c2, c3, c4, c5, c6, c7, _, c8, c9, _⟩ := params_names hF (storedFit inp s o bin par v cov c h) order s' hs'
  refine ⟨s', e1, e2, ?_, ?_⟩
  · apply List.ext_getElem?
    intro k
    rw [List.getElem?_map, List.getElem?_map]
    by_cases hk : k < s.pars.nmbPars
    · rw [c3] at hk
      rcases Nat.lt_succ_iff_lt_or_eq.1 hk with hk | hk
      · obtain ⟨p, p', p1, p2, _, _, p3, _⟩ := c8 k _ (List.getElem?_eq_getElem hk)
        rw [p1, p2, Option.map_some, Option.map_some, p3]
      · subst hk
        obtain ⟨p, p', p1, p2, _, _, p3, _⟩ := c9
        rw [p1, p2, Option.map_some, Option.map_some, p3]
    · rw [List.getElem?_eq_none (by omega), List.getElem?_eq_none (by omega)]
  · intro k q hq
    have hk := (List.getElem?_eq_some_iff.1 hq).1
    rw [c6, c3] at hk
    rcases Nat.lt_succ_iff_lt_or_eq.1 hk with hk | hk
    · obtain ⟨x, hx⟩ : ∃ x, comp[k]? = some x := ⟨_, List.getElem?_eq_getElem hk⟩
      obtain ⟨p, p', p1, p2, p3, p4, _, _, p6⟩ := c8 k x hx
      rw [hq] at p2; cases p2
      have hxf := (c2 x).1 (List.mem_of_getElem? hx)
      have hxw : inp.IsWave x.1.2 := ⟨hxf.2.1, hxf.2.2.1⟩
      rw [p6, thr_iff _ (by rw [stored_centre]; exact hm), vanishes_iff hF o bin par v cov c h _ hxw]
      constructor
      · intro h'
        exact ⟨x.1.2, hxw, p4.trans p3, h'⟩
      · rintro ⟨i, hi, hn, h'⟩
        rw [inp.waveName_inj hF.husable.hnodup x.1.2 i hxw hi ((p4.trans p3).symm.trans hn)]
        exact h'
    · subst hk
      obtain ⟨p, p', p1, p2, p3, p4, _, _, p6⟩ := c9
      rw [hq] at p2; cases p2
      rw [p6]
      constructor
      · intro h'; cases h'
      · rintro ⟨i, hi, hn, _⟩
        exact absurd (hn.symm.trans p4) (hF.noFlat i hi)

/-- **C90, fixed parameters.** If fixed parameters are zero (as both fit functions leave them), every parameter that was fixed in the fit is fixed
again; if in addition no wave with free parameters has ended at zero, exactly the same parameters are fixed. -/
theorem refit_fixed (hm : 0 < centre bin) (hfix : ∀ k < s.pars.nmbPars, LikData.fixedAt s.pars k = true → par k = 0) :
    ∃ s', rebuild (filesOf inp) desc (storedFit inp s o bin par v cov c h) = .ok (some s') ∧
      (∀ k, LikData.fixedAt s.pars k = true → LikData.fixedAt s'.pars k = true) ∧
      ((∀ (k : ℕ) (p : FitPar) (i : WaveIx), s.pars.params[k]? = some p → p.fixed = false → inp.IsWave i → p.waveName = inp.waveName i →
          ∃ j < inp.rank, s.data.amps par (j, i) ≠ 0) →
        ∀ k, LikData.fixedAt s'.pars k = LikData.fixedAt s.pars k) := by
  obtain ⟨s', e1, ⟨order, hs'⟩, e2, _⟩ := rebuild_ok hF o bin par v cov c h
  obtain ⟨comp, c1, c2, c3, c4, c5, c6, c7, _, c8, c9, _⟩ := params_names hF (storedFit inp s o bin par v cov c h) order s' hs'
  have step : ∀ k, LikData.fixedAt s.pars k = true → LikData.fixedAt s'.pars k = true := by
    intro k hk
    have hlt : k < comp.length + 1 := by
      by_contra hn
      unfold LikData.fixedAt at hk
      rw [List.getElem?_eq_none (by omega)] at hk
      cases hk
    rcases Nat.lt_succ_iff_lt_or_eq.1 hlt with hlt | hlt
    · obtain ⟨x, hx⟩ : ∃ x, comp[k]? = some x := ⟨_, List.getElem?_eq_getElem hlt⟩
      obtain ⟨p, p', p1, p2, p3, p4, _, p5, p6⟩ := c8 k x hx
      unfold LikData.fixedAt at hk ⊢
      rw [p1] at hk
      rw [p2]
      have hxf := (c2 x).1 (List.mem_of_getElem? hx)
      have hxw : inp.IsWave x.1.2 := ⟨hxf.2.1, hxf.2.2.1⟩
      apply p6.2
      left
      rw [thr_iff _ (by rw [stored_centre]; exact hm), vanishes_iff hF o bin par v cov c h _ hxw]
      exact fixed_vanishes hF par hfix _ hxw (p5.1 hk)
    · subst hlt
      obtain ⟨p, p', p1, p2, p3, p4, _, p5, p6⟩ := c9
      unfold LikData.fixedAt at hk
      rw [p1] at hk
      rw [show p.fixed = true from hk] at p5
      cases p5
  refine ⟨s', e1, step, ?_⟩
  intro hne k
  cases hk : LikData.fixedAt s.pars k with
  | true => exact step k hk
  | false =>
    by_cases hlt : k < comp.length + 1
    · rcases Nat.lt_succ_iff_lt_or_eq.1 hlt with hlt | hlt
      · obtain ⟨x, hx⟩ : ∃ x, comp[k]? = some x := ⟨_, List.getElem?_eq_getElem hlt⟩
        obtain ⟨p, p', p1, p2, p3, p4, _, p5, p6⟩ := c8 k x hx
        unfold LikData.fixedAt at hk ⊢
        rw [p1] at hk
        rw [p2]
        have hxf := (c2 x).1 (List.mem_of_getElem? hx)
        have hxw : inp.IsWave x.1.2 := ⟨hxf.2.1, hxf.2.2.1⟩
        have hpf : p.fixed = false := hk
        obtain ⟨j, hj, hjn⟩ := hne k p x.1.2 p1 hpf hxw p3
        show p'.fixed = false
        by_contra hc
        rw [Bool.not_eq_false] at hc
        rcases p6.1 hc with h' | h'
        · rw [thr_iff _ (by rw [stored_centre]; exact hm), vanishes_iff hF o bin par v cov c h _ hxw] at h'
          exact hjn (h' j hj)
        · have := p5.2 (.inr h')
          rw [hpf] at this; cases this
      · subst hlt
        obtain ⟨p, p', p1, p2, p3, p4, _, p5, p6⟩ := c9
        unfold LikData.fixedAt
        rw [p2]
        exact p6
    · unfold LikData.fixedAt
      rw [List.getElem?_eq_none (by omega)]
      rfl

/-- **C90, covariance matrix.** If fixed parameters are zero and the Hessian of the free parameters can be inverted, `calcCovMatrixForFitResult`
writes the result with the inverse of the Hessian at the parameters of the fit as covariance matrix, and everything else unchanged; this also holds
for fits with empty waves, for which the fit itself cannot give a covariance matrix (C28). -/
theorem refit_covariance (inv : ℕ → (ℕ → ℕ → ℝ) → (ℕ → ℕ → ℝ)) (hinv : Inverts inv) (eig : ℕ → (ℕ → ℕ → ℝ) → ℕ → (ℕ → ℝ) × ℝ)
    (hm : 0 < centre bin) (hfix : ∀ k < s.pars.nmbPars, LikData.fixedAt s.pars k = true → par k = 0) :
    ∃ s', rebuild (filesOf inp) desc (storedFit inp s o bin par v cov true h) = .ok (some s') ∧ s'.data = s.data ∧
      ∀ B, InverseOnFree s'.pars (s.data.hessian s'.pars par) B →
        ∃ r C, calcCov inv eig (filesOf inp) desc [storedFit inp s o bin par v cov true h] = .ok (some r) ∧
          r.cov = ⟨s.pars.nmbPars, s.pars.nmbPars, C⟩ ∧ r.covMatrixValid = true ∧ InverseOnFree s'.pars (s.data.hessian s'.pars par) C ∧
          (∀ i j, i < s.pars.nmbPars → j < s.pars.nmbPars → LikData.fixedAt s'.pars i = true ∨ LikData.fixedAt s'.pars j = true → C i j = 0) ∧
          r = { storedFit inp s o bin par v cov true h with
            cov := r.cov
            covMatrixValid := true
            hasHessian := true
            normIntIndexMap := r.normIntIndexMap } := by
  obtain ⟨s', e1, ⟨order, hs'⟩, e2, e3, e4, _⟩ := rebuild_ok hF o bin par v cov true h
  obtain ⟨comp, c1, c2, c3, c4, c5, c6, c7, _, c8, c9, c10⟩ := params_names hF (storedFit inp s o bin par v cov true h) order s' hs'
  refine ⟨s', e1, e2, ?_⟩
  intro B hB
  have hcount : s'.pars.nmbParsFixed = (s'.pars.params.filter (·.fixed)).length := by
    apply c10
    intro x hx he
    have hxf := (c2 x).1 hx
    have hxw : inp.IsWave x.1.2 := ⟨hxf.2.1, hxf.2.2.1⟩
    rw [thr_iff _ (by rw [stored_centre]; exact hm), vanishes_iff hF o bin par v cov true h _ hxw]
    exact fixed_vanishes hF par hfix _ hxw (.inr he)
  have hlen : s'.pars.params.length = s'.pars.nmbPars := by rw [c6, c4]
  obtain ⟨C, k1, k2, k3⟩ := covariance_partial inv hinv s'.pars hlen hcount _ B hB
  obtain ⟨M, hM, _, _⟩ := reduceMatrix_eq s'.pars hlen (le_of_eq hcount) (s.data.hessian s'.pars par)
  obtain ⟨_, q2⟩ := parsFor_eq hF o bin par v cov true h order s' hs'
  set r := storedFit inp s o bin par v cov true h with hr
  have hH : s'.data.hessian s'.pars (fun i => (parsFor s' r).getD i 0) = s.data.hessian s'.pars par := by
    rw [e2]
    obtain ⟨comp', hl⟩ := layout_of_matches (likOf s inp.waves.threshold).fn hF.is_matched
    have hc : copyFromParArray s.data.rank s.data.nW (fun i => (parsFor s' r).getD i 0) = copyFromParArray s.data.rank s.data.nW par :=
      copyFrom_congr hl _ par q2
    unfold LikData.hessian
    rw [hc]
  have hadd : Attempts.addMatrices inv eig (likOf s' fun _ _ => 0) none r =
      .ok (fillWith FitResult.new r ⟨s'.pars.nmbPars, s'.pars.nmbPars, C⟩ r.normIntegral r.accNormIntegral r.phaseSpaceIntegral) := by
    unfold Attempts.addMatrices
    have hH' : (likOf s' fun _ _ => 0).fn.hessian (likOf s' fun _ _ => 0).pars (fun i => (parsOf (likOf s' fun _ _ => 0) r).getD i 0) =
      s.data.hessian s'.pars par := hH
    simp only [hH']
    unfold hessianEigenVectors
    have hM' : reduceMatrix (likOf s' fun _ _ => 0).pars (s.data.hessian s'.pars par) = .ok M := hM
    have k1' : covarianceMatrix inv (likOf s' fun _ _ => 0).pars (s.data.hessian s'.pars par) = .ok C := k1
    simp only [hM', Outcome.ok_bind, k1']
    rfl
  have hg : getFitResultFromFile [r] = some r := rfl
  refine ⟨fillWith FitResult.new r ⟨s'.pars.nmbPars, s'.pars.nmbPars, C⟩ r.normIntegral r.accNormIntegral r.phaseSpaceIntegral, C, ?_, ?_, ?_, k2, ?_, ?_⟩
  · unfold calcCov
    simp only [hg, e1, Outcome.ok_bind, hadd]
  · show (⟨s'.pars.nmbPars, s'.pars.nmbPars, C⟩ : Mat ℝ) = _
    rw [c4]
  · show decide (s'.pars.nmbPars ≠ 0 ∧ s'.pars.nmbPars ≠ 0) = true
    rw [decide_eq_true_iff]; omega
  · rw [← c4]; exact k3
  · have hn0 : s'.pars.nmbPars ≠ 0 ∧ s'.pars.nmbPars ≠ 0 := by omega
    have w1 : (FitResult.waveLoop r.prodAmpNames 0 [] fun _ => none).1 = r.waveNames := rfl
    unfold fillWith FitResult.fillA FitResult.fill
    simp only [Option.getD_some]
    have e5 : decide (s'.pars.nmbPars ≠ 0 ∧ s'.pars.nmbPars ≠ 0) = true := decide_eq_true hn0
    rw [e5, if_pos hn0]
    rfl

end

end Rpwa.Refit

import Verif.Props.LikSetupMain
/-! # C63: usable input can be loaded; what happens outside the protocol -/
namespace Rpwa.Lik

open Rpwa.Integral

namespace SetupInput
variable (inp : SetupInput)

theorem waveName_mem (i : WaveIx) (hi : inp.IsWave i) : ∃ w ∈ inp.ws, w.1 = inp.waveName i ∧ (i.1 = 1 ↔ w.2.1 > 0) := by
  obtain ⟨e, k⟩ := i
  obtain ⟨h1, h2⟩ := hi
  simp only at h1
  have h2' : k < (inp.ws.filter fun w => (decide (w.2.1 > 0)) == (e == 1)).length := h2
  have hg : inp.waveName (e, k) = (inp.ws.filter fun w => (decide (w.2.1 > 0)) == (e == 1))[k].1 := by
    show ((inp.ws.filter fun w => (decide (w.2.1 > 0)) == (e == 1)).getD k ("", 0, 0)).1 = _
    rw [List.getD_eq_getElem?_getD, List.getElem?_eq_getElem h2', Option.getD_some]
  have hm := List.getElem_mem h2'
  rw [List.mem_filter] at hm
  refine ⟨_, hm.1, hg.symm, ?_⟩
  have h3 := hm.2
  rw [beq_iff_eq, Bool.eq_iff_iff, decide_eq_true_eq, beq_iff_eq] at h3
  exact h3.symm

theorem waveName_surj (w : String × ℤ × ℝ) (hw : w ∈ inp.ws) : ∃ i, inp.IsWave i ∧ inp.waveName i = w.1 := by
  have key : ∀ e : ℕ, e < 2 → (decide (w.2.1 > 0)) = (e == 1) → ∃ i, inp.IsWave i ∧ inp.waveName i = w.1 := by
    intro e he hd
    have hm : w ∈ inp.ws.filter fun w => (decide (w.2.1 > 0)) == (e == 1) := by
      rw [List.mem_filter]; exact ⟨hw, by rw [hd]; simp⟩
    obtain ⟨k, hk, hk2⟩ := List.getElem_of_mem hm
    refine ⟨(e, k), ⟨he, hk⟩, ?_⟩
    show ((inp.ws.filter fun w => (decide (w.2.1 > 0)) == (e == 1)).getD k ("", 0, 0)).1 = _
    rw [List.getD_eq_getElem?_getD, List.getElem?_eq_getElem hk, Option.getD_some, hk2]
  by_cases h : w.2.1 > 0
  · exact key 1 (by norm_num) (by simp [h])
  · exact key 0 (by norm_num) (by simp [h])

theorem waveName_inj (hnodup : (inp.ws.map (·.1)).Nodup) (i j : WaveIx) (hi : inp.IsWave i) (hj : inp.IsWave j)
    (hij : inp.waveName i = inp.waveName j) : i = j := by
  obtain ⟨v, hv, hvn, hvr⟩ := inp.waveName_mem i hi
  obtain ⟨w, hw, hwn, hwr⟩ := inp.waveName_mem j hj
  have hvw : v = w := List.inj_on_of_nodup_map hnodup hv hw (by rw [hvn, hwn, hij])
  subst hvw
  have he : i.1 = j.1 := by
    have h1 := hi.1
    have h2 := hj.1
    by_cases h : v.2.1 > 0
    · rw [hvr.2 h, hwr.2 h]
    · have h3 := fun h' => h (hvr.1 h')
      have h4 := fun h' => h (hwr.1 h')
      omega
  obtain ⟨e, k⟩ := i
  obtain ⟨e', k'⟩ := j
  simp only at he
  subst he
  obtain ⟨_, h2⟩ := hi
  obtain ⟨_, h2'⟩ := hj
  have h2a : k < (inp.ws.filter fun w => (decide (w.2.1 > 0)) == (e == 1)).length := h2
  have h2b : k' < (inp.ws.filter fun w => (decide (w.2.1 > 0)) == (e == 1)).length := h2'
  have hx : (inp.ws.filter fun w => (decide (w.2.1 > 0)) == (e == 1))[k].1 = (inp.ws.filter fun w => (decide (w.2.1 > 0)) == (e == 1))[k'].1 := by
    have hg : ∀ (k : ℕ) (h2' : k < (inp.ws.filter fun w => (decide (w.2.1 > 0)) == (e == 1)).length),
        inp.waveName (e, k) = (inp.ws.filter fun w => (decide (w.2.1 > 0)) == (e == 1))[k].1 := by
      intro k h2'
      show ((inp.ws.filter fun w => (decide (w.2.1 > 0)) == (e == 1)).getD k ("", 0, 0)).1 = _
      rw [List.getD_eq_getElem?_getD, List.getElem?_eq_getElem h2', Option.getD_some]
    rw [← hg k h2a, ← hg k' h2b]; exact hij
  have hnd : ((inp.ws.filter fun w => (decide (w.2.1 > 0)) == (e == 1)).map (·.1)).Nodup := hnodup.sublist (List.filter_sublist.map _)
  have := (List.nodup_iff_injective_get.1 hnd) (a₁ := ⟨k, by simpa using h2a⟩) (a₂ := ⟨k', by simpa using h2b⟩) (by simpa using hx)
  rw [Fin.mk.injEq] at this
  rw [this]

/-- **C63, availability.** Usable input can be loaded: if the waves have different names, both integral matrices contain them, there is at least
one event, all amplitude lists have the same length, and (for normalised amplitudes) only waves without amplitudes have a zero integral, then every
call succeeds, in whatever order the waves are added. -/
theorem setup_returns (hdiag : inp.DiagOk) (N : ℕ) (hu : inp.Usable N) (order : List String)
    (hmem : ∀ w, w ∈ order ↔ w ∈ inp.ws.map (·.1)) : ∃ s, Succeeds LikObj.new (inp.protocol order) s := by
  have hidx : ∀ i, inp.IsWave i → inp.index (inp.waveName i) = some i := by
    intro i hi
    cases hx : inp.index (inp.waveName i) with
    | none =>
      unfold index at hx
      rw [List.find?_eq_none] at hx
      exact absurd (by simp) (hx i ((mem_waveIxs _ _).2 hi))
    | some j =>
      obtain ⟨h1, h2⟩ := inp.index_some _ j hx
      rw [inp.waveName_inj hu.hnodup i j hi h1 h2.symm]
  have hnW : inp.waves.nW 0 + inp.waves.nW 1 ≠ 0 := by
    obtain ⟨w, hw⟩ := List.exists_mem_of_ne_nil _ hu.hwaves
    obtain ⟨⟨e, k⟩, ⟨h1, h2⟩, _⟩ := inp.waveName_surj w hw
    simp only at h1 h2
    rcases (by omega : e = 0 ∨ e = 1) with rfl | rfl <;> omega
  obtain ⟨r, hr, hr2⟩ := buildParDataStruct_returns inp.waves inp.rank inp.mass
  cases r with
  | none => exact absurd (hr2.1 rfl) hnW
  | some d =>
    have hfirst : inp.First d := by
      refine ⟨hu.hrefl, hr, ?_, ?_⟩
      · intro i hi
        obtain ⟨w, hw, hn, _⟩ := inp.waveName_mem i hi
        rw [← hn]; exact hu.hnorm w hw
      · intro i hi
        obtain ⟨w, hw, hn, _⟩ := inp.waveName_mem i hi
        rw [← hn]; exact hu.hacc w hw
    have hok : ∀ w ∈ order, inp.AddOk w N := by
      intro w hw
      obtain ⟨v, hv, rfl⟩ := List.mem_map.1 ((hmem w).1 hw)
      obtain ⟨i, hi, hn⟩ := inp.waveName_surj v hv
      refine ⟨hu.hevents, hu.hamps v hv, i, by rw [← hn]; exact hidx i hi, ?_⟩
      rintro ⟨h1, h2, a, ha, hne⟩
      rw [← hn] at ha
      exact hne (hu.hzero h1 i hi h2 a ha)
    have hall : ∀ i, inp.IsWave i → ∃ w ∈ order, inp.index w = some i := by
      intro i hi
      obtain ⟨w, hw, hn, _⟩ := inp.waveName_mem i hi
      exact ⟨inp.waveName i, (hmem _).2 (List.mem_map.2 ⟨w, hw, hn⟩), hidx i hi⟩
    have hne : order ≠ [] := by
      intro h0
      obtain ⟨w, hw⟩ := List.exists_mem_of_ne_nil _ hu.hwaves
      have := (hmem w.1).2 (List.mem_map.2 ⟨w, hw, rfl⟩)
      rw [h0] at this; cases this
    have hN := hu.hevents
    refine ⟨inp.final d order N, (succeeds_append _ _ _ _).2 ⟨inp.added d order N, (succeeds_append _ _ _ _).2 ⟨inp.base d,
      inp.first_returns d hfirst hu.hnormWF hu.haccWF, (inp.adds_spec hdiag d order _).2 ⟨N, ?_, hok, rfl⟩⟩, (succeeds_one _ _ _).2 ?_⟩⟩
    · constructor
      · intro h; omega
      · intro h; exact absurd h hne
    · simp only [LikObj.step, LikObj.finishInit]
      rw [if_neg]
      · rfl
      · rw [List.any_eq_true]
        rintro ⟨i, hi, hx⟩
        have hex : ∃ w ∈ order, inp.index w = some i := hall i ((mem_waveIxs _ _).1 hi)
        have : (inp.added d order N).ampAdded i = true := decide_eq_true hex
        rw [this] at hx
        cases hx

end SetupInput

/-! ### an example: a wave of each reflectivity, one of which has no amplitude and no acceptance -/

/-- integral matrix of two waves with 4 events. -/
noncomputable def exIntMat : IntMat := ⟨2, ["a", "b"], 4, 2, 2, fun i j => if i = 0 ∧ j = 0 then 16 else 0, []⟩

/-- example. -/
noncomputable def exSetup : SetupInput :=
  { ws := [("a", 1, 0), ("b", -1, 0)], rank := 1, mass := 1, norm := exIntMat, acc := { exIntMat with nmbEvents := 2 }, accEventsOverride := 0,
    amps := fun w => if w = "a" then [6] else [0], useNorm := true, prior := .flat, cauchyWidth := 0.5 }

theorem exSetup_waves (i : WaveIx) (hi : exSetup.IsWave i) : i = (0, 0) ∧ exSetup.waveName i = "b" ∨ i = (1, 0) ∧ exSetup.waveName i = "a" := by
  obtain ⟨e, k⟩ := i
  obtain ⟨h1, h2⟩ := hi
  simp only at h1 h2
  rcases (by omega : e = 0 ∨ e = 1) with rfl | rfl
  · left
    have : k < 1 := h2
    have : k = 0 := by omega
    subst this
    exact ⟨rfl, rfl⟩
  · right
    have : k < 1 := h2
    have : k = 0 := by omega
    subst this
    exact ⟨rfl, rfl⟩

theorem exSetup_norm : exSetup.ints.norm (0, 0) (0, 0) = 0 ∧ exSetup.ints.norm (1, 0) (1, 0) = 4 := by
  have h0 : exSetup.IsWave (0, 0) := ⟨by norm_num, by show 0 < 1; norm_num⟩
  have h1 : exSetup.IsWave (1, 0) := ⟨by norm_num, by show 0 < 1; norm_num⟩
  constructor
  · refine (if_pos ⟨rfl, h0, h0⟩).trans ?_
    have : exSetup.norm.entry (exSetup.waveName (0, 0)) (exSetup.waveName (0, 0)) = 0 := rfl
    rw [this, zero_div]
  · refine (if_pos ⟨rfl, h1, h1⟩).trans ?_
    have : exSetup.norm.entry (exSetup.waveName (1, 0)) (exSetup.waveName (1, 0)) = 16 := rfl
    rw [this]
    show (16 : ℂ) / ((4 : ℕ) : ℂ) = 4
    norm_num

theorem exSetup_diag : exSetup.DiagOk := by
  intro i hi
  rcases exSetup_waves i hi with ⟨rfl, _⟩ | ⟨rfl, _⟩
  · rw [exSetup_norm.1]; simp
  · rw [exSetup_norm.2]; simp

theorem exSetup_usable : exSetup.Usable 1 := by
  refine ⟨?_, by simp [exSetup], ?_, ⟨rfl, rfl, rfl⟩, ⟨rfl, rfl, rfl⟩, ?_, ?_, by norm_num, ?_, ?_⟩
  · intro w hw
    simp only [exSetup, List.mem_cons, List.not_mem_nil, or_false] at hw
    rcases hw with rfl | rfl <;> simp
  · simp [exSetup]
  · intro w hw
    simp only [exSetup, List.mem_cons, List.not_mem_nil, or_false] at hw
    rcases hw with rfl | rfl <;> simp [exSetup, exIntMat]
  · intro w hw
    simp only [exSetup, List.mem_cons, List.not_mem_nil, or_false] at hw
    rcases hw with rfl | rfl <;> simp [exSetup, exIntMat]
  · intro w hw
    simp only [exSetup, List.mem_cons, List.not_mem_nil, or_false] at hw
    rcases hw with rfl | rfl <;> simp [exSetup]
  · intro _ i hi hz a ha
    rcases exSetup_waves i hi with ⟨rfl, hn⟩ | ⟨rfl, hn⟩
    · rw [hn] at ha
      simpa [exSetup] using ha
    · rw [exSetup_norm.2] at hz
      norm_num at hz

/-- the hypotheses of the theorems are met: the example loads, and its first wave is used with its amplitude 6 divided by 2. -/
theorem exSetup_loads : ∃ s, Succeeds LikObj.new (exSetup.protocol ["b", "a"]) s ∧ s.data.nmbEvents = 1 ∧ s.data.decayAmps 1 0 0 = 3 ∧ s.data.totAcc = 1 / 2 ∧
    exSetup.Empty (0, 0) := by
  obtain ⟨s, hs⟩ := exSetup.setup_returns exSetup_diag 1 exSetup_usable ["b", "a"] (by
    intro w
    simp only [exSetup, List.mem_cons, List.not_mem_nil, or_false, List.map_cons, List.map_nil]
    exact or_comm)
  have hg : exSetup.genEvents = 4 := rfl
  obtain ⟨N, hN, hf, _, _⟩ := exSetup.setup_finished exSetup_diag (by rw [hg]; norm_num) _ s hs
  have h1 : exSetup.IsWave (1, 0) := ⟨by norm_num, by show 0 < 1; norm_num⟩
  have h0 : exSetup.IsWave (0, 0) := ⟨by norm_num, by show 0 < 1; norm_num⟩
  obtain ⟨k1, k2⟩ := hf.hamps (1, 0) h1
  have ha : exSetup.amps (exSetup.waveName (1, 0)) = [6] := rfl
  rw [ha] at k1 k2
  have hN1 : N = 1 := by simpa using k1.symm
  refine ⟨s, hs, by rw [hf.hevents, hN1], ?_, ?_, ?_⟩
  · have k3 := k2 0
    have hsc : exSetup.scale (1, 0) = 2 := by
      unfold SetupInput.scale
      rw [exSetup_norm.2]
      have : Real.sqrt (4 : ℂ).re = 2 := by
        rw [show (4 : ℂ).re = 2 * 2 by norm_num]
        exact Real.sqrt_mul_self (by norm_num)
      rw [this, if_neg (by simp [exSetup])]
    rw [hsc] at k3
    have k4 : s.data.decayAmps 1 0 0 * ((2 : ℝ) : ℂ) = 6 := k3
    push_cast at k4
    linear_combination k4 / 2
  · have := hf.htot
    rw [hg] at this
    have h2 : (exSetup.acc.nmbEvents : ℝ) = 2 := by show ((2 : ℕ) : ℝ) = 2; norm_num
    rw [h2] at this
    push_cast at this
    linarith only [this]
  · constructor
    · refine (if_pos ⟨rfl, h0, h0⟩).trans ?_
      have : exSetup.acc.entry (exSetup.waveName (0, 0)) (exSetup.waveName (0, 0)) = 0 := rfl
      rw [this, zero_div]
    · intro a ha
      have : exSetup.amps (exSetup.waveName (0, 0)) = [0] := rfl
      rw [this] at ha
      simpa using ha

/-! ### outside the protocol -/

/-- **C63, guard.** Whatever calls are made: without a call of `finishInit` the likelihood cannot be evaluated. -/
theorem eval_needs_finish (s t : LikObj) (cs : List SetupCall) (h0 : s.initFinished = false) (h : SetupReach s cs t) (hno : SetupCall.finishInit ∉ cs)
    (par : ℕ → ℝ) : t.doEval par = .terminate := by
  suffices ht : t.initFinished = false by
    unfold LikObj.doEval; rw [ht]; rfl
  induction h with
  | nil => exact h0
  | @cons s t u c cs b h1 _ ih =>
    refine ih ?_ (fun hm => hno (List.mem_cons_of_mem _ hm))
    cases c with
    | useNormalizedAmps v => cases h1; exact h0
    | setPriorType v => cases h1; exact h0
    | setCauchyWidth v => cases h1; exact h0
    | init ws r m =>
      simp only [LikObj.step] at h1
      unfold LikObj.init at h1
      split at h1
      · cases h1
      split at h1
      · cases h1
      obtain ⟨od, _, h1⟩ := Outcome.bind_eq_ok.1 h1
      cases od <;> cases h1 <;> exact h0
    | addNormIntegral m =>
      simp only [LikObj.step] at h1
      unfold LikObj.addNormIntegral at h1
      split at h1
      · cases h1; exact h0
      obtain ⟨od, _, h1⟩ := Outcome.bind_eq_ok.1 h1
      cases h1; exact h0
    | addAccIntegral m n =>
      simp only [LikObj.step] at h1
      obtain ⟨r, h2, h3⟩ := SetupInput.map_eq_ok h1
      unfold LikObj.addAccIntegral at h2
      split at h2
      · cases h2; cases h3; exact h0
      obtain ⟨od, _, h2⟩ := Outcome.bind_eq_ok.1 h2
      cases h2; cases h3; exact h0
    | addAmplitude w a =>
      simp only [LikObj.step, Outcome.ok.injEq] at h1
      have hkeep : (s.addAmplitude w a).2.initFinished = s.initFinished := by
        unfold LikObj.addAmplitude LikObj.setEvents
        split
        · rfl
        · split
          · rfl
          · dsimp only
            split_ifs <;> rfl
      rw [h1] at hkeep
      exact hkeep.trans h0
    | finishInit => exact absurd (by simp) hno

/-- **C63, finding.** `addAccIntegral` changes the number of events of the matrix it is given. A second likelihood that is set up with the same
objects gets an acceptance of 1, whatever the acceptance is. -/
theorem second_likelihood_acceptance (s s' t t' : LikObj) (m m' m'' : IntMat) (hs : s.addAccIntegral m 0 = .ok (true, s', m'))
    (ht : t.addAccIntegral m' 0 = .ok (true, t', m'')) (hsame : t.numbAccEvents = s.numbAccEvents) (hn : s.numbAccEvents ≠ 0) :
    s'.totAcc * s.numbAccEvents = m.nmbEvents ∧ t'.totAcc = 1 := by
  have hnr : (s.numbAccEvents : ℝ) ≠ 0 := by exact_mod_cast hn
  unfold LikObj.addAccIntegral at hs ht
  split at hs
  · cases hs
  obtain ⟨M, _, hs⟩ := Outcome.bind_eq_ok.1 hs
  cases hs
  split at ht
  · cases ht
  obtain ⟨M2, _, ht⟩ := Outcome.bind_eq_ok.1 ht
  cases ht
  simp only [if_true]
  rw [hsame]
  exact ⟨div_mul_cancel₀ _ hnr, div_self hnr⟩

/-- **C63, finding.** `finishInit` is accepted a second time; with normalised amplitudes the phase-space integral of every wave with non-zero integral
is then 1. -/
theorem finishInit_twice (s s' s'' : LikObj) (hu : s.useNorm = true) (h1 : s.finishInit = (true, s')) (h2 : s'.finishInit = (true, s'')) (i : WaveIx)
    (hi : i ∈ waveIxs s.nW) : s'.phaseSpace i = Real.sqrt (s.ints.norm i i).re ∧ (s.ints.norm i i ≠ 0 → s''.phaseSpace i = 1) := by
  unfold LikObj.finishInit at h1 h2
  split at h1
  · cases h1
  cases h1
  simp only [hu, if_true] at h2
  split at h2
  · cases h2
  cases h2
  refine ⟨if_pos hi, ?_⟩
  intro hz
  refine (if_pos hi).trans ?_
  rw [rescale_norm _ _ i i hi hi, if_pos rfl, if_pos hz]
  simp

/-- **C63, finding.** A wave that is added again after `finishInit` is loaded without its normalisation factor. -/
theorem addAmplitude_after_finishInit (s s' s'' : LikObj) (hu : s.useNorm = true) (h1 : s.finishInit = (true, s')) (w : String) (amps : List ℂ)
    (h2 : s'.addAmplitude w amps = (true, s'')) (i : WaveIx) (hw : s.waveParams.lookup w = some i) (hi : i ∈ waveIxs s.nW)
    (hz : s.ints.norm i i ≠ 0) (ev : ℕ) (hev : ev < amps.length) : s''.decayAmps i ev = amps.getD ev 0 := by
  unfold LikObj.finishInit at h1
  split at h1
  · cases h1
  cases h1
  unfold LikObj.addAmplitude at h2
  split at h2
  · cases h2
  simp only [hw] at h2
  split at h2
  · cases h2
  split at h2
  · cases h2
  split at h2
  · cases h2
  rename_i hl
  cases h2
  simp only [Function.update_self]
  have hn : ∀ n, (LikObj.setEvents { s with
      phaseSpace := fun i => if i ∈ waveIxs s.nW then Real.sqrt (s.ints.norm i i).re else s.phaseSpace i
      ints := rescaleIntegrals s.nW s.ints
      initFinished := true } n).ints.norm i i = 1 := by
    intro n
    unfold LikObj.setEvents
    have : (rescaleIntegrals s.nW s.ints).norm i i = 1 := by rw [rescale_norm _ _ i i hi hi, if_pos rfl, if_pos hz]
    split_ifs <;> exact this
  have hl' := hl
  simp only [Bool.not_eq_true, Bool.not_eq_false'] at hl'
  obtain ⟨q, _⟩ := (loadLoop_spec _ _ _ _ _).2 hl'
  rw [q ev, if_pos ⟨Nat.zero_le _, by simpa using hev⟩, hn]
  unfold scaleAmp
  split_ifs <;> simp

/-- **C63, finding.** A new object without any wave can be finished. -/
theorem finishInit_new : (LikObj.new.finishInit).1 = true := by
  unfold LikObj.finishInit
  rw [if_neg]
  simp [LikObj.new, waveIxs]

/-- **C63, finding.** `init` on an object that has waves already has undefined behaviour. -/
theorem init_twice (s s' : LikObj) (ws ws' : List (String × ℤ × ℝ)) (rank rank' : ℕ) (m m' : ℝ) (h : s.init ws rank m = .ok (true, s'))
    (hr : ∀ w ∈ ws', w.2.1 = 1 ∨ w.2.1 = -1) : s'.init ws' rank' m' = .ub := by
  unfold LikObj.init at h
  split at h
  · cases h
  split at h
  · cases h
  obtain ⟨od, hd, h⟩ := Outcome.bind_eq_ok.1 h
  obtain ⟨r, hr1, hr2⟩ := buildParDataStruct_returns (readWaveList ws) rank m
  cases od with
  | none => cases h
  | some d =>
    cases h
    rw [hd] at hr1
    cases hr1
    have hn : (readWaveList ws).nW 0 + (readWaveList ws).nW 1 ≠ 0 := fun h0 => by have := hr2.2 h0; cases this
    unfold LikObj.init
    rw [if_neg (not_not.2 hr), if_pos]
    show (readWaveList ws).nW 0 ≠ 0 ∨ (readWaveList ws).nW 1 ≠ 0
    omega

/-- **C63, finding.** Two waves of the same name: the set-up never finishes, although each call before `finishInit` succeeds. -/
theorem duplicate_never_finishes (inp : SetupInput) (hdiag : inp.DiagOk) (order : List String) (i j : WaveIx) (hi : inp.IsWave i) (hj : inp.IsWave j)
    (hij : i ≠ j) (hn : inp.waveName i = inp.waveName j) : ¬ ∃ s, Succeeds LikObj.new (inp.protocol order) s := by
  rintro ⟨s, hs⟩
  obtain ⟨d, N, _, _, _, hall, _⟩ := inp.protocol_spec hdiag order s hs
  have h1 := inp.index_name order hall i hi
  have h2 := inp.index_name order hall j hj
  rw [hn, h2] at h1
  exact hij (Option.some.inj h1).symm

end Rpwa.Lik

import Verif.Spec.Refit
import Verif.Props.LikSetupUse
import Verif.Props.FitAttemptsMatrices
/-! # C90: a stored fit is evaluated again -/
namespace Rpwa.Refit

open Rpwa.Lik Rpwa.Fit Rpwa.PwaFit Rpwa.Attempts

theorem thresholded_iff (r : FitResult) (wave : Name) : thresholded r wave = true ↔ Vanishes r wave := by
  classical
  have key : ∀ (l : List ℕ) (t : Bool), l.foldl (fun t i =>
      if waveNameOf (r.prodAmpNames.getD i []) = wave then if r.prodAmps i ≠ 0 then false else t else t) t = true ↔
      t = true ∧ ∀ i ∈ l, waveNameOf (r.prodAmpNames.getD i []) = wave → r.prodAmps i = 0 := by
    intro l
    induction l with
    | nil => intro t; simp
    | cons i l ih =>
      intro t
      rw [List.foldl_cons, ih]
      by_cases h1 : waveNameOf (r.prodAmpNames.getD i []) = wave
      · rw [if_pos h1]
        by_cases h2 : r.prodAmps i = 0
        · rw [if_neg (not_not.2 h2)]
          constructor
          · rintro ⟨a, b⟩
            exact ⟨a, fun j hj => by
              rcases List.mem_cons.1 hj with rfl | hj
              · exact fun _ => h2
              · exact b j hj⟩
          · rintro ⟨a, b⟩
            exact ⟨a, fun j hj => b j (List.mem_cons_of_mem _ hj)⟩
        · rw [if_pos h2]
          constructor
          · rintro ⟨a, _⟩; cases a
          · rintro ⟨_, b⟩; exact absurd (b i (by simp) h1) h2
      · rw [if_neg h1]
        constructor
        · rintro ⟨a, b⟩
          exact ⟨a, fun j hj => by
            rcases List.mem_cons.1 hj with rfl | hj
            · exact fun h => absurd h h1
            · exact b j hj⟩
        · rintro ⟨a, b⟩
          exact ⟨a, fun j hj => b j (List.mem_cons_of_mem _ hj)⟩
  unfold thresholded Vanishes
  refine (key _ _).trans ?_
  simp [List.mem_range]

/-- the calls succeed exactly if the object is returned. -/
theorem runCalls_iff (s t : LikObj) (cs : List SetupCall) : runCalls s cs = .ok (some t) ↔ Succeeds s cs t := by
  induction cs generalizing s with
  | nil =>
    constructor
    · intro h
      have : some s = some t := Outcome.ok.inj h
      cases this; exact .nil _
    · intro h; cases h; rfl
  | cons c cs ih =>
    unfold runCalls
    constructor
    · intro h
      obtain ⟨⟨b, u⟩, h1, h2⟩ := Outcome.bind_eq_ok.1 h
      cases b with
      | false =>
        have h2' : (Outcome.ok none : Outcome (Option LikObj)) = .ok (some t) := h2
        cases h2'
      | true => exact .cons h1 ((ih u).1 h2)
    · intro h
      cases h with
      | cons h1 h2 => exact Outcome.bind_eq_ok.2 ⟨_, h1, (ih _).2 h2⟩

theorem thresLoop_ok (desc : Name → Option ℤ) (r : FitResult) {ι : Type} (l : List ι) (nm : ι → String) (refl : ι → ℤ)
    (hflat : ∀ i ∈ l, nm i ≠ "flat") (hd : ∀ i ∈ l, desc (nm i).toList = some (refl i)) :
    thresLoop desc r (l.map (fun i => (nm i).toList) ++ ["flat".toList]) =
      .ok (l.map fun i => (nm i, refl i, threshold r (nm i).toList)) := by
  induction l with
  | nil =>
    rw [List.map_nil, List.nil_append]
    unfold thresLoop
    rw [if_pos rfl]
    rfl
  | cons i l ih =>
    rw [List.map_cons, List.cons_append]
    unfold thresLoop
    rw [if_neg fun h => hflat i (by simp) (String.toList_injective h), hd i (by simp)]
    dsimp only
    rw [ih (fun j hj => hflat j (List.mem_cons_of_mem _ hj)) fun j hj => hd j (List.mem_cons_of_mem _ hj)]
    rw [Outcome.ok_bind, String.ofList_toList, List.map_cons]

/-- **C90, wave list.** The wave list is read back exactly if every wave of the result other than the flat one has a description; the script
stops otherwise. -/
theorem wave_list_refused (desc : Name → Option ℤ) (r : FitResult) (w : Name) (hw : w ∈ r.waveNames) (hflat : w ≠ "flat".toList)
    (hd : desc w = none) : getWaveDescThresFromFitResult desc r = .terminate := by
  unfold getWaveDescThresFromFitResult
  generalize r.waveNames = l at hw
  induction l with
  | nil => cases hw
  | cons x l ih =>
    unfold thresLoop
    by_cases hx : x = "flat".toList
    · rw [if_pos hx]
      rcases List.mem_cons.1 hw with rfl | hw
      · exact absurd hx hflat
      · exact ih hw
    · rw [if_neg hx]
      cases hdx : desc x with
      | none => rfl
      | some refl =>
        dsimp only
        rcases List.mem_cons.1 hw with rfl | hw
        · rw [hd] at hdx; cases hdx
        · rw [ih hw]; rfl

/-- input with other thresholds, made from the same files. -/
structure SameInput (a b : SetupInput) : Prop where
  hnW : a.waves.nW = b.waves.nW
  hname : a.waves.name = b.waves.name
  hrank : a.rank = b.rank
  hnorm : a.norm = b.norm
  hacc : a.acc = b.acc
  hover : a.accEventsOverride = b.accEventsOverride
  hamps : a.amps = b.amps
  huse : a.useNorm = b.useNorm
  hprior : a.prior = b.prior
  hwidth : a.cauchyWidth = b.cauchyWidth

namespace SameInput
variable {a b : SetupInput} (h : SameInput a b)
include h

theorem isWave (i : WaveIx) : a.IsWave i ↔ b.IsWave i := by unfold SetupInput.IsWave; rw [h.hnW]
theorem waveName : a.waveName = b.waveName := by funext i; unfold SetupInput.waveName; rw [h.hname]
theorem genEvents : a.genEvents = b.genEvents := by unfold SetupInput.genEvents; rw [h.hover, h.hnorm]
theorem ints : a.ints = b.ints := by
  have hi : a.IsWave = b.IsWave := funext fun i => propext (h.isWave i)
  unfold SetupInput.ints
  rw [hi, h.waveName, h.genEvents, h.hnorm, h.hacc]
theorem totAcc : a.totAcc = b.totAcc := by unfold SetupInput.totAcc; rw [h.hacc, h.genEvents]
theorem empty (i : WaveIx) : a.Empty i ↔ b.Empty i := by unfold SetupInput.Empty; rw [h.ints, h.hamps, h.waveName]
theorem index : a.index = b.index := by funext w; unfold SetupInput.index; rw [h.hnW, h.waveName]
theorem diag : a.DiagOk ↔ b.DiagOk := by unfold SetupInput.DiagOk; simp only [h.isWave, h.ints]

/-- likelihoods from such inputs have the same data. -/
theorem data_eq (hdiag : b.DiagOk) {oa ob : List String} {s t : LikObj} (hs : Succeeds LikObj.new (a.protocol oa) s)
    (ht : Succeeds LikObj.new (b.protocol ob) t) :
    s.data = t.data ∧ s.nW = t.nW ∧ s.name = t.name ∧ s.ints = t.ints ∧ s.phaseSpace = t.phaseSpace ∧ s.totAcc = t.totAcc ∧
      s.initFinished = t.initFinished := by
  obtain ⟨d, N, hd, hN, hok, hall, rfl⟩ := a.protocol_spec (h.diag.2 hdiag) oa s hs
  obtain ⟨d', N', hd', hN', hok', hall', rfl⟩ := b.protocol_spec hdiag ob t ht
  have hNN : N = N' := by
    obtain ⟨r, hr, hr2⟩ := buildParDataStruct_returns a.waves a.rank a.mass
    rw [hd.hbuilt] at hr
    have hn : ¬ a.waves.nW 0 + a.waves.nW 1 = 0 := by
      intro h; have := hr2.2 h; rw [this] at hr; cases hr
    have hex : ∃ i, a.IsWave i := by
      by_cases h0 : a.waves.nW 0 = 0
      · exact ⟨(1, 0), by norm_num, by show 0 < a.waves.nW 1; omega⟩
      · exact ⟨(0, 0), by norm_num, by show 0 < a.waves.nW 0; omega⟩
    obtain ⟨i, hi⟩ := hex
    obtain ⟨w, hw, hx⟩ := hall i hi
    obtain ⟨w', hw', hx'⟩ := hall' i ((h.isWave i).1 hi)
    have e1 := (hok w hw).2.1
    have e2 := (hok' w' hw').2.1
    rw [← (a.index_some w i hx).2] at e1
    rw [← (b.index_some w' i hx').2, ← h.waveName, ← h.hamps] at e2
    rw [← e1, e2]
  subst hNN
  have hmem : ∀ i, (∃ w ∈ oa, a.index w = some i) ↔ ∃ w ∈ ob, b.index w = some i := by
    intro i
    constructor
    · rintro ⟨w, _, hx⟩
      exact hall' i ((h.isWave i).1 (a.index_some w i hx).1)
    · rintro ⟨w, _, hx⟩
      exact hall i ((h.isWave i).2 (b.index_some w i hx).1)
  have hints : (a.final d oa N).ints = (b.final d' ob N).ints := by
    show (if a.useNorm then rescaleIntegrals a.waves.nW a.ints else a.ints) = if b.useNorm then rescaleIntegrals b.waves.nW b.ints else b.ints
    rw [h.huse, h.hnW, h.ints]
  have hamps : (a.final d oa N).decayAmps = (b.final d' ob N).decayAmps := by
    classical
    funext i ev
    show (if ∃ w ∈ oa, a.index w = some i then scaleAmp a.useNorm (a.ints.norm i i) ((a.amps (a.waveName i)).getD ev 0) else 0) =
      if ∃ w ∈ ob, b.index w = some i then scaleAmp b.useNorm (b.ints.norm i i) ((b.amps (b.waveName i)).getD ev 0) else 0
    rw [h.huse, h.ints, h.hamps, h.waveName]
    exact if_congr (hmem i) rfl rfl
  have e1 : (a.final d oa N).rank = (b.final d' ob N).rank := h.hrank
  have e2 : (a.final d oa N).nW = (b.final d' ob N).nW := h.hnW
  have e3 : (a.final d oa N).totAcc = (b.final d' ob N).totAcc := h.totAcc
  have e4 : (a.final d oa N).useNorm = (b.final d' ob N).useNorm := h.huse
  have e5 : (a.final d oa N).prior = (b.final d' ob N).prior := h.hprior
  have e6 : (a.final d oa N).cauchyWidth = (b.final d' ob N).cauchyWidth := h.hwidth
  have e7 : (a.final d oa N).nmbEvents = (b.final d' ob N).nmbEvents := rfl
  refine ⟨?_, e2, h.waveName, hints, ?_, e3, rfl⟩
  · unfold LikObj.data
    rw [e1, e2, e3, e4, e5, e6, e7, hints, hamps]
  · funext i
    show (if i ∈ waveIxs a.waves.nW then Real.sqrt (a.ints.norm i i).re else 0) = if i ∈ waveIxs b.waves.nW then Real.sqrt (b.ints.norm i i).re else 0
    rw [h.hnW, h.ints]

end SameInput

/-- the wave list that is read back from a fit. -/
noncomputable def backList (inp : SetupInput) (thr : String → ℝ) : List (String × ℤ × ℝ) :=
  (waveIxs inp.waves.nW).map fun i => (inp.waveName i, if i.1 = 1 then 1 else -1, thr (inp.waveName i))

theorem waves_refl (inp : SetupInput) (e : ℕ) : inp.waves.nW e = inp.waves.nW (if e = 1 then 1 else 0) ∧
    ∀ k, inp.waves.name e k = inp.waves.name (if e = 1 then 1 else 0) k := by
  by_cases h : e = 1
  · subst h; exact ⟨rfl, fun _ => rfl⟩
  · rw [if_neg h]
    have e1 : (e == 1) = (0 == 1) := by simp [h]
    constructor
    · show (inp.ws.filter fun w => (decide (w.2.1 > 0)) == (e == 1)).length = (inp.ws.filter fun w => (decide (w.2.1 > 0)) == (0 == 1)).length
      rw [e1]
    · intro k
      show ((inp.ws.filter fun w => (decide (w.2.1 > 0)) == (e == 1)).getD k ("", 0, 0)).1 =
        ((inp.ws.filter fun w => (decide (w.2.1 > 0)) == (0 == 1)).getD k ("", 0, 0)).1
      rw [e1]

theorem backList_filter (inp : SetupInput) (thr : String → ℝ) (e : ℕ) :
    (backList inp thr).filter (fun w => (decide (w.2.1 > 0)) == (e == 1)) =
      (List.range (inp.waves.nW e)).map fun k => (inp.waves.name e k, (if e = 1 then 1 else -1 : ℤ), thr (inp.waves.name e k)) := by
  have hw : waveIxs inp.waves.nW = (List.range (inp.waves.nW 0)).map (fun k => (0, k)) ++ (List.range (inp.waves.nW 1)).map (fun k => (1, k)) := by
    unfold waveIxs
    rw [show List.range 2 = [0, 1] from rfl]
    simp
  unfold backList
  rw [hw, List.map_append, List.map_map, List.map_map, List.filter_append]
  have f0 : ∀ l : List ℕ, (l.map ((fun i : WaveIx => (inp.waveName i, (if i.1 = 1 then 1 else -1 : ℤ), thr (inp.waveName i))) ∘ fun k => (0, k))).filter
      (fun w => (decide (w.2.1 > 0)) == (e == 1)) = if e = 1 then [] else
        l.map fun k => (inp.waves.name 0 k, (-1 : ℤ), thr (inp.waves.name 0 k)) := by
    intro l
    by_cases h : e = 1
    · rw [if_pos h, List.filter_eq_nil_iff]
      intro x hx
      obtain ⟨k, _, rfl⟩ := List.mem_map.1 hx
      simp [h]
    · rw [if_neg h, List.filter_eq_self.2]
      · apply List.map_congr_left
        intro k _
        simp [SetupInput.waveName]
      · intro x hx
        obtain ⟨k, _, rfl⟩ := List.mem_map.1 hx
        simp [h]
  have f1 : ∀ l : List ℕ, (l.map ((fun i : WaveIx => (inp.waveName i, (if i.1 = 1 then 1 else -1 : ℤ), thr (inp.waveName i))) ∘ fun k => (1, k))).filter
      (fun w => (decide (w.2.1 > 0)) == (e == 1)) = if e = 1 then
        l.map fun k => (inp.waves.name 1 k, (1 : ℤ), thr (inp.waves.name 1 k)) else [] := by
    intro l
    by_cases h : e = 1
    · rw [if_pos h, List.filter_eq_self.2]
      · apply List.map_congr_left
        intro k _
        simp [SetupInput.waveName]
      · intro x hx
        obtain ⟨k, _, rfl⟩ := List.mem_map.1 hx
        simp [h]
    · rw [if_neg h, List.filter_eq_nil_iff]
      intro x hx
      obtain ⟨k, _, rfl⟩ := List.mem_map.1 hx
      simp [h]
  rw [f0, f1]
  obtain ⟨g1, g2⟩ := waves_refl inp e
  by_cases h : e = 1
  · subst h; simp
  · rw [if_neg h, if_neg h, if_neg h, List.append_nil, g1, if_neg h]
    apply List.map_congr_left
    intro k _
    rw [g2 k, if_neg h]

theorem backList_waves (inp : SetupInput) (thr : String → ℝ) :
    (readWaveList (backList inp thr)).nW = inp.waves.nW ∧ (readWaveList (backList inp thr)).name = inp.waves.name ∧
    ∀ e k, k < inp.waves.nW e → (readWaveList (backList inp thr)).threshold e k = thr (inp.waves.name e k) := by
  refine ⟨?_, ?_, ?_⟩
  · funext e
    show ((backList inp thr).filter fun w => (decide (w.2.1 > 0)) == (e == 1)).length = _
    rw [backList_filter, List.length_map, List.length_range]
  · funext e k
    show (((backList inp thr).filter fun w => (decide (w.2.1 > 0)) == (e == 1)).getD k ("", 0, 0)).1 = _
    rw [backList_filter, List.getD_eq_getElem?_getD, List.getElem?_map]
    by_cases hk : k < inp.waves.nW e
    · rw [List.getElem?_range hk]; rfl
    · rw [List.getElem?_eq_none (by rw [List.length_range]; omega)]
      have hk' : (inp.ws.filter fun w => (decide (w.2.1 > 0)) == (e == 1)).length ≤ k := Nat.not_lt.1 hk
      show "" = ((inp.ws.filter fun w => (decide (w.2.1 > 0)) == (e == 1)).getD k ("", 0, 0)).1
      rw [List.getD_eq_getElem?_getD, List.getElem?_eq_none hk']
      rfl
  · intro e k hk
    show (((backList inp thr).filter fun w => (decide (w.2.1 > 0)) == (e == 1)).getD k ("", 0, 0)).2.2 = _
    rw [backList_filter, List.getD_eq_getElem?_getD, List.getElem?_map, List.getElem?_range hk]
    rfl

/-! ### the wave list, the likelihood and its value -/

/-- the input that is made again from a result. -/
noncomputable def backInput (inp : SetupInput) (r : FitResult) : SetupInput :=
  { inp with ws := backList inp fun n => threshold r n.toList
             mass := massBinCenter r }

theorem backInput_same (inp : SetupInput) (r : FitResult) : SameInput (backInput inp r) inp :=
  ⟨(backList_waves inp fun n => threshold r n.toList).1, (backList_waves inp fun n => threshold r n.toList).2.1, rfl, rfl, rfl, rfl, rfl, rfl, rfl, rfl⟩

theorem backInput_usable (inp : SetupInput) (r : FitResult) (N : ℕ) (hu : inp.Usable N) : (backInput inp r).Usable N := by
  have hS := backInput_same inp r
  have hmem : ∀ w ∈ (backInput inp r).ws, ∃ v ∈ inp.ws, v.1 = w.1 := by
    intro w hw
    obtain ⟨i, hi, rfl⟩ := List.mem_map.1 hw
    obtain ⟨v, hv, h1, _⟩ := inp.waveName_mem i ((mem_waveIxs _ _).1 hi)
    exact ⟨v, hv, h1⟩
  refine ⟨?_, ?_, ?_, hu.hnormWF, hu.haccWF, ?_, ?_, hu.hevents, ?_, ?_⟩
  · intro w hw
    obtain ⟨i, hi, rfl⟩ := List.mem_map.1 hw
    dsimp only
    by_cases h : i.1 = 1
    · left; rw [if_pos h]
    · right; rw [if_neg h]
  · intro h
    obtain ⟨w, hw⟩ := List.exists_mem_of_ne_nil _ hu.hwaves
    obtain ⟨i, hi, _⟩ := inp.waveName_surj w hw
    have : waveIxs inp.waves.nW = [] := List.map_eq_nil_iff.1 h
    have h2 := (mem_waveIxs inp.waves.nW i).2 hi
    rw [this] at h2; cases h2
  · have e : (backInput inp r).ws.map (·.1) = (waveIxs inp.waves.nW).map inp.waveName := by
      show (List.map _ (waveIxs inp.waves.nW)).map _ = _
      rw [List.map_map]; rfl
    rw [e, List.nodup_map_iff_inj_on (nodup_waveIxs _)]
    intro i hi j hj hc
    exact inp.waveName_inj hu.hnodup i j ((mem_waveIxs _ _).1 hi) ((mem_waveIxs _ _).1 hj) hc
  · intro w hw
    obtain ⟨v, hv, h1⟩ := hmem w hw
    rw [← h1]; exact hu.hnorm v hv
  · intro w hw
    obtain ⟨v, hv, h1⟩ := hmem w hw
    rw [← h1]; exact hu.hacc v hv
  · intro w hw
    obtain ⟨v, hv, h1⟩ := hmem w hw
    rw [← h1]; exact hu.hamps v hv
  · intro h i hi hz a ha
    rw [hS.ints] at hz
    rw [hS.waveName] at ha
    exact hu.hzero h i ((hS.isWave i).1 hi) hz a ha

section
variable {inp : SetupInput} {N : ℕ} {desc : Name → Option ℤ} {s : LikObj} (hF : FitOf inp N desc s)
include hF

theorem FitOf.lik : s.data.rank = inp.rank ∧ s.data.nW = inp.waves.nW ∧ s.data.useNormalizedAmps = inp.useNorm ∧ s.data.nmbEvents = N ∧
    (likOf s inp.waves.threshold).waves = inp.waves ∧ s.initFinished = true := by
  obtain ⟨order, hs⟩ := hF.hset
  obtain ⟨d, M, hd, hM, hok, hall, rfl⟩ := inp.protocol_spec hF.hdiag order s hs
  refine ⟨rfl, rfl, rfl, ?_, rfl, rfl⟩
  show M = N
  obtain ⟨w, hw⟩ := List.exists_mem_of_ne_nil _ hF.husable.hwaves
  obtain ⟨i, hi, hn⟩ := inp.waveName_surj w hw
  have hm := (inp.mem_order_iff order M hok hall w.1).2 ⟨i, hi, hn⟩
  rw [← (hok _ hm).2.1]
  exact hF.husable.hamps w hw

theorem FitOf.distinct : DistinctNames (likOf s inp.waves.threshold) := by
  intro i hi j hj h
  have e : (likOf s inp.waves.threshold).fn.nW = inp.waves.nW := hF.lik.2.1
  rw [e] at hi hj
  rw [hF.lik.2.2.2.2.1] at h
  exact inp.waveName_inj hF.husable.hnodup i j ((mem_waveIxs _ _).1 hi) ((mem_waveIxs _ _).1 hj) h

theorem FitOf.noFlat (i : WaveIx) (hi : inp.IsWave i) : inp.waveName i ≠ "flat" := by
  intro h
  have e : (likOf s inp.waves.threshold).fn.nW = inp.waves.nW := hF.lik.2.1
  have e2 : (likOf s inp.waves.threshold).fn.rank = inp.rank := hF.lik.1
  apply (hF.hplain 0 i.1 i.2 (by rw [e2]; exact hF.hrank) hi.1 (by rw [e]; exact hi.2)).2.2
  rw [ampName_toList]
  have h' : (likOf s inp.waves.threshold).waves.name i.1 i.2 = "flat" := by rw [hF.lik.2.2.2.2.1]; exact h
  simp only [h']
  exact ⟨'V' :: ((Nat.repr 0).toList ++ ['_']), [], by simp⟩

theorem FitOf.is_matched : (likOf s inp.waves.threshold).fn.Matches (likOf s inp.waves.threshold).waves (likOf s inp.waves.threshold).pars inp.mass := by
  obtain ⟨order, hs⟩ := hF.hset
  rw [hF.lik.2.2.2.2.1]
  exact inp.setup_matches hF.hdiag order s hs fun i hi h => absurd h (hF.noFlat i hi)

variable (o : Options) (bin : List (Name × ℝ × ℝ)) (par : ℕ → ℝ) (v : ℝ) (cov : ℕ → ℕ → ℝ) (c h : Bool)

omit hF in
theorem stored_centre : massBinCenter (storedFit inp s o bin par v cov c h) = centre bin := by
  show (match bin.lookup "mass".toList with
    | some b => (b.1 + b.2) / 2
    | none => 0) = centre bin
  unfold centre
  cases bin.lookup "mass".toList <;> rfl

/-- **C90, wave list.** The wave list that is read back from a fit contains the waves of the fit, those of negative reflectivity first, and each
wave of which all amplitudes are zero gets a threshold above the mass bin. -/
theorem refit_wave_list : getWaveDescThresFromFitResult desc (storedFit inp s o bin par v cov c h) =
    .ok ((waveIxs inp.waves.nW).map fun i => (inp.waveName i, if i.1 = 1 then 1 else -1,
      threshold (storedFit inp s o bin par v cov c h) (inp.waveName i).toList)) := by
  obtain ⟨e1, e2, e3, e4, e5, e6⟩ := hF.lik
  have hw : (storedFit inp s o bin par v cov c h).waveNames =
      (waveIxs inp.waves.nW).map (fun i => (inp.waveName i).toList) ++ ["flat".toList] := by
    have := fill_waveNames (likOf s inp.waves.threshold) inp.mass hF.is_matched o bin par v cov c h (by show 0 < s.data.rank; rw [e1]; exact hF.hrank)
      hF.distinct ?_
    · have e : (likOf s inp.waves.threshold).fn.nW = inp.waves.nW := e2
      rw [e, e5] at this
      exact this
    · intro i hi hc
      have e : (likOf s inp.waves.threshold).fn.nW = inp.waves.nW := e2
      rw [e] at hi
      rw [e5] at hc
      exact hF.noFlat i ((mem_waveIxs _ _).1 hi) hc
  unfold getWaveDescThresFromFitResult
  rw [hw]
  refine thresLoop_ok desc _ (waveIxs inp.waves.nW) inp.waveName (fun i => if i.1 = 1 then 1 else -1) ?_ ?_
  · intro i hi
    exact hF.noFlat i ((mem_waveIxs _ _).1 hi)
  · intro i hi
    obtain ⟨w, hw, h1, h2⟩ := inp.waveName_mem i ((mem_waveIxs _ _).1 hi)
    rw [← h1, hF.hdesc w hw]
    congr 1
    rcases hF.husable.hrefl w hw with h3 | h3
    · rw [if_pos (h2.2 (by omega)), h3]
    · rw [if_neg fun h' => by have := h2.1 h'; omega, h3]

/-- **C90, the likelihood is set up again.** From the result of a fit and the files of the fit, a likelihood is set up without error
that has the same data as the one that was fitted. -/
theorem rebuild_ok : ∃ s', rebuild (filesOf inp) desc (storedFit inp s o bin par v cov c h) = .ok (some s') ∧
    (∃ order, Succeeds LikObj.new ((backInput inp (storedFit inp s o bin par v cov c h)).protocol order) s') ∧
    s'.data = s.data ∧ s'.nW = s.nW ∧ s'.name = s.name ∧ s'.ints = s.ints ∧ s'.phaseSpace = s.phaseSpace ∧ s'.totAcc = s.totAcc ∧
    s'.initFinished = true := by
  obtain ⟨e1, e2, e3, e4, e5, e6⟩ := hF.lik
  have hwl := refit_wave_list hF o bin par v cov c h
  set r := storedFit inp s o bin par v cov c h with hr
  have hS := backInput_same inp r
  have hU := backInput_usable inp r N hF.husable
  obtain ⟨s', hs'⟩ := (backInput inp r).setup_returns (hS.diag.2 hF.hdiag) N hU ((backInput inp r).ws.map (·.1)) fun _ => Iff.rfl
  obtain ⟨order, hs⟩ := hF.hset
  obtain ⟨d1, d2, d3, d4, d5, d6, d7⟩ := hS.data_eq hF.hdiag hs' hs
  refine ⟨s', ?_, ⟨_, hs'⟩, d1, d2, d3, d4, d5, d6, d7.trans e6⟩
  unfold rebuild
  rw [hwl, Outcome.ok_bind]
  have hne : ¬ ((waveIxs inp.waves.nW).map fun i => (inp.waveName i, if i.1 = 1 then 1 else -1, threshold r (inp.waveName i).toList) :
      List (String × ℤ × ℝ)).isEmpty = true := by
    rw [List.isEmpty_iff]
    exact hU.hwaves
  rw [if_neg hne]
  have hrk : r.rank.toNat = inp.rank := by
    show ((s.data.rank : ℕ) : ℤ).toNat = inp.rank
    rw [Int.toNat_natCast, e1]
  have hno : decide (r.normNmbEvents = 1) = inp.useNorm := by
    have : r.normNmbEvents = if s.data.useNormalizedAmps then 1 else s.data.nmbEvents := rfl
    rw [this, e3, e4]
    cases hun : inp.useNorm with
    | true => rfl
    | false =>
      have hN1 : N ≠ 1 := hF.hnorm.resolve_left (by rw [hun]; simp)
      simpa using hN1
  rw [hrk, hno]
  unfold initLikelihood
  rw [runCalls_iff]
  unfold SetupInput.protocol at hs'
  rw [List.map_map] at hs'
  exact hs'

end

end Rpwa.Refit

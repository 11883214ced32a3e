import Verif.Lemmas.IntegralOtf
import Verif.Props.IntegralFiles
/-! # C89: `calcIntegralsOnTheFly` -/
namespace Rpwa.IntMeta
open Rpwa.Integral Rpwa.Storage

variable (md5 : List UInt8 → String) (bytes : ℂ → List UInt8) (keyWaves : String → List (Option String))

/-- the waves to be integrated fit together for the events used. -/
structure OtfConsistent (waves : List OtfWave) (evs : List ℕ) : Prop where
  someWaves : waves ≠ []
  keyFiles : (waves.map (·.keyFile)).Nodup
  readable : ∀ ev ∈ evs, ∀ w ∈ waves, (w.amp ev).isSome = true
  described : ∀ c ∈ waves.map (·.keyFile), ∀ o ∈ keyWaves c, ∃ n, o = some n ∧ n ∈ waves.map (·.wave)
  number : ((waves.map (·.keyFile)).flatMap keyWaves).length = waves.length

/-- what is written. -/
structure OtfWritten (waves : List OtfWave) (evs : List ℕ) (evtMeta : EventMeta) (bins : BinMap) (r : Meta) (M : IntMat) : Prop where
  matrix : r.matrix = some M
  wf : M.WF
  names : M.names = waves.map (·.wave)
  events : M.nmbEvents = evs.length
  entries : ∀ a ∈ M.names, ∀ b ∈ M.names, M.entry a b = otfTotal waves evs a b
  elements : ∀ a ∈ M.names, ∀ b ∈ M.names, M.elementByName a b = .ok (otfTotal waves evs a b / (evs.length : ℂ))
  evtMetas : r.evtMetas = [evtMeta]
  bins : r.bins = bins
  keyFiles : r.keyFiles = waves.map (·.keyFile)
  git : r.gitHash = ""
  contentHash : r.contentHash = elementHash md5 bytes M
  ampHashes : ∀ x, x ∈ r.ampHashes ↔ x ≠ md5 ((List.range evs.length).flatMap fun _ => bytes 0) ∧
    ∃ w ∈ waves, x = md5 (evs.flatMap fun ev => bytes ((w.amp ev).getD 0))

theorem foldl_append_zero (n : ℕ) (s : List UInt8) : (List.range n).foldl (fun h _ => h ++ bytes 0) s =
    s ++ (List.range n).flatMap fun _ => bytes 0 := by
  generalize List.range n = l
  induction l generalizing s with
  | nil => simp
  | cons x l ih => simp [ih]

theorem otf_core (hmd : ∀ l, md5 l ≠ "") (waves : List OtfWave) (hn : (waves.map (·.wave)).Nodup) (evtMeta : EventMeta) (metaBins : BinMap)
    (nEvents : ℕ) (rows : ℕ → String → Option ℝ) (binsArg : BinMap) (maxNmbEvents : ℤ) (startEvent : ℕ) :
    let bins := massFix (if binsArg = [] then metaBins else binsArg)
    let evs := otfEvents bins rows startEvent (otfLast nEvents maxNmbEvents startEvent)
    (OtfConsistent keyWaves waves evs → ∃ r M,
      calcOnTheFly md5 bytes keyWaves waves evtMeta metaBins nEvents rows binsArg maxNmbEvents startEvent = .ok (some r) ∧
        OtfWritten md5 bytes waves evs evtMeta bins r M) ∧
    (¬ OtfConsistent keyWaves waves evs →
      calcOnTheFly md5 bytes keyWaves waves evtMeta metaBins nEvents rows binsArg maxNmbEvents startEvent = .ok none) := by
  intro bins evs
  have hlast : (if maxNmbEvents > -1 then min nEvents (startEvent + maxNmbEvents.toNat) else nEvents) =
      otfLast nEvents maxNmbEvents startEvent := by
    unfold otfLast
    by_cases h : maxNmbEvents < 0
    · rw [if_pos h, if_neg (by omega)]
    · rw [if_neg h, if_pos (by omega)]
  unfold calcOnTheFly
  cases hk : addKeyFiles waves Meta.new with
  | none =>
    dsimp only
    refine ⟨fun h => ?_, fun _ => rfl⟩
    have := (addKeyFiles_iff waves Meta.new _ (by simp [Meta.new])).2 ⟨by simpa [Meta.new] using h.keyFiles, rfl⟩
    rw [hk] at this
    simp at this
  | some m =>
    obtain ⟨k1, rfl⟩ := (addKeyFiles_iff waves Meta.new m (by simp [Meta.new])).1 hk
    have k1' : (waves.map (·.keyFile)).Nodup := by simpa [Meta.new] using k1
    dsimp only
    by_cases hw : waves = []
    · rw [if_pos hw]
      exact ⟨fun h => absurd hw h.someWaves, fun _ => rfl⟩
    rw [if_neg hw, hlast]
    have hadd : ({ Meta.new with keyFiles := Meta.new.keyFiles ++ waves.map (·.keyFile) } : Meta).addEvt evtMeta =
        (true, { Meta.new with keyFiles := Meta.new.keyFiles ++ waves.map (·.keyFile), evtMetas := [evtMeta] }) := by
      simp [Meta.addEvt, Meta.new]
    rw [hadd]
    dsimp only
    have hM0 : (empty.setWaveNames (waves.map (·.wave))).2 =
        (({ empty with names := waves.map (·.wave), nmbWaves := (waves.map (·.wave)).length } : IntMat).resize
          (waves.map (·.wave)).length (waves.map (·.wave)).length) := by
      unfold IntMat.setWaveNames
      rw [if_neg (by decide)]
    obtain ⟨s1, s2⟩ := otfLoop_spec bytes waves hn bins rows startEvent (otfLast nEvents maxNmbEvents startEvent - startEvent)
      (empty.setWaveNames (waves.map (·.wave))).2 (fun n => if (waves.map (·.wave)).contains n then some 0 else none)
      (by rw [hM0]; exact ⟨rfl, rfl, rfl⟩) (by rw [hM0]; rfl) (by rw [hM0]; rfl) (by
        intro a b
        rw [hM0]
        simp [IntMat.entry, IntMat.resize, empty])
    rw [otfUpTo_eq] at s1 s2
    by_cases hr : ∀ ev ∈ evs, ∀ w ∈ waves, (w.amp ev).isSome = true
    · obtain ⟨M, d, e, wM, nM, eM, vM⟩ := s1 hr
      rw [e]
      simp only [Outcome.ok_bind]
      unfold Meta.setMatrix Meta.setAllZeroHash
      dsimp only
      obtain ⟨l, el, cl⟩ := addHash_fold md5 (waves.map (otfBytes bytes evs)) { Meta.new with
          keyFiles := Meta.new.keyFiles ++ waves.map (·.keyFile)
          evtMetas := [evtMeta]
          bins := bins
          matrix := some M
          allZeroHash := md5 ((List.range M.nmbEvents).foldl (fun h _ => h ++ bytes 0) []) }
      have el' := el
      dsimp only [evs, bins] at el'
      rw [el']
      unfold Meta.writeToFile
      rw [setHash_ok md5 bytes hmd _ M rfl wM]
      simp only [Outcome.ok_bind, if_true]
      have hchk : ∀ m : Meta, m.matrix = some M → m.keyFiles = waves.map (·.keyFile) → (m.check keyWaves = true ↔
          (∀ c ∈ waves.map (·.keyFile), ∀ o ∈ keyWaves c, ∃ n, o = some n ∧ n ∈ waves.map (·.wave)) ∧
          ((waves.map (·.keyFile)).flatMap keyWaves).length = waves.length) := by
        intro m h1 h2
        rw [check_iff keyWaves m M h1 wM, h2, nM]
        simp
      have ck := hchk { Meta.new with
          contentHash := elementHash md5 bytes M
          keyFiles := Meta.new.keyFiles ++ waves.map (·.keyFile)
          evtMetas := [evtMeta]
          bins := bins
          matrix := some M
          allZeroHash := md5 ((List.range M.nmbEvents).foldl (fun h _ => h ++ bytes 0) [])
          ampHashes := l } rfl (by simp [Meta.new])
      constructor
      · intro hC
        refine ⟨_, M, by rw [if_pos (ck.2 ⟨hC.described, hC.number⟩)], ⟨rfl, wM, nM, eM, vM, ?_, rfl, rfl, by simp [Meta.new], rfl, rfl, ?_⟩⟩
        · intro a ha b hb
          rw [elementByName_ok M wM a b ha hb, vM a ha b hb, eM]
        · intro x
          show x ∈ l ↔ _
          rw [cl x, foldl_append_zero, eM]
          simp only [Meta.new, List.not_mem_nil, false_or, List.nil_append, List.mem_map, exists_exists_and_eq_and]
          rfl
      · intro hC
        rw [if_neg]
        intro hc
        obtain ⟨d1, d2⟩ := ck.1 hc
        exact hC ⟨hw, k1', hr, d1, d2⟩
    · rw [s2 hr]
      exact ⟨fun hC => absurd hC.readable hr, fun _ => rfl⟩

/-- C89: when the integration on the fly writes a file. -/
theorem otf_succeeds_iff (hmd : ∀ l, md5 l ≠ "") (waves : List OtfWave) (hn : (waves.map (·.wave)).Nodup) (evtMeta : EventMeta)
    (metaBins : BinMap) (nEvents : ℕ) (rows : ℕ → String → Option ℝ) (binsArg : BinMap) (maxNmbEvents : ℤ) (startEvent : ℕ)
    (hb : (binsArg.map (·.1)).Nodup) (hmb : (metaBins.map (·.1)).Nodup) :
    ∃ bins, UsedBins binsArg metaBins bins ∧
      ((∃ r, calcOnTheFly md5 bytes keyWaves waves evtMeta metaBins nEvents rows binsArg maxNmbEvents startEvent = .ok (some r)) ↔
        OtfConsistent keyWaves waves (otfEvents bins rows startEvent (otfLast nEvents maxNmbEvents startEvent))) := by
  have hc := otf_core md5 bytes keyWaves hmd waves hn evtMeta metaBins nEvents rows binsArg maxNmbEvents startEvent
  dsimp only at hc
  refine ⟨massFix (if binsArg = [] then metaBins else binsArg), ?_, ⟨fun ⟨r, h⟩ => ?_, fun h => ?_⟩⟩
  · by_cases he : binsArg = []
    · rw [if_pos he]
      exact ⟨metaBins, .inr ⟨he, rfl⟩, massFix_spec metaBins hmb⟩
    · rw [if_neg he]
      exact ⟨binsArg, .inl ⟨he, rfl⟩, massFix_spec binsArg hb⟩
  · by_contra hn
    rw [hc.2 hn] at h
    simp at h
  · obtain ⟨r, _, h, _⟩ := hc.1 h
    exact ⟨r, h⟩

/-- C89: what the integration on the fly writes: for every pair of waves the average over the events of the range in the bin. -/
theorem otf_result (hmd : ∀ l, md5 l ≠ "") (waves : List OtfWave) (hn : (waves.map (·.wave)).Nodup) (evtMeta : EventMeta)
    (metaBins : BinMap) (nEvents : ℕ) (rows : ℕ → String → Option ℝ) (binsArg : BinMap) (maxNmbEvents : ℤ) (startEvent : ℕ)
    (hb : (binsArg.map (·.1)).Nodup) (hmb : (metaBins.map (·.1)).Nodup) (r : Meta)
    (h : calcOnTheFly md5 bytes keyWaves waves evtMeta metaBins nEvents rows binsArg maxNmbEvents startEvent = .ok (some r)) :
    ∃ bins M, UsedBins binsArg metaBins bins ∧
      OtfWritten md5 bytes waves (otfEvents bins rows startEvent (otfLast nEvents maxNmbEvents startEvent)) evtMeta bins r M := by
  have hc := otf_core md5 bytes keyWaves hmd waves hn evtMeta metaBins nEvents rows binsArg maxNmbEvents startEvent
  dsimp only at hc
  by_cases hC : OtfConsistent keyWaves waves (otfEvents (massFix (if binsArg = [] then metaBins else binsArg)) rows startEvent
      (otfLast nEvents maxNmbEvents startEvent))
  · obtain ⟨r', M, h', hw⟩ := hc.1 hC
    rw [h] at h'
    cases h'
    refine ⟨_, M, ?_, hw⟩
    by_cases he : binsArg = []
    · rw [if_pos he]
      exact ⟨metaBins, .inr ⟨he, rfl⟩, massFix_spec metaBins hmb⟩
    · rw [if_neg he]
      exact ⟨binsArg, .inl ⟨he, rfl⟩, massFix_spec binsArg hb⟩
  · rw [hc.2 hC] at h
    simp at h

/-- `bins` are not in MeV. -/
def NotMeV (bins : BinMap) : Prop := ∀ lo hi, ("mass", (lo, hi)) ∈ bins → lo ≤ 200

theorem massFix_id (bins : BinMap) (h : NotMeV bins) : massFix bins = bins := by
  unfold massFix
  cases hl : bins.lookup "mass" with
  | none => rfl
  | some r =>
    dsimp only
    rw [if_neg]
    obtain ⟨l1, l2, e, _⟩ := List.lookup_eq_some_iff.1 hl
    have := h r.1 r.2 (by rw [e]; simp)
    exact not_lt.2 this

/-- C89: the two ways of integrating agree: if the amplitude files hold, for every event, the amplitude the on-the-fly integration calculates,
all events are used and no weights are given, both give the same integrals. -/
theorem otf_agrees (hmd : ∀ l, md5 l ≠ "") (git : String) (bins : BinMap) (hbins : bins ≠ []) (hmev : NotMeV bins)
    (f : EvtFile) (waves : List OtfWave) (metaBins : BinMap) (hn : (waves.map (·.wave)).Nodup)
    (hsame : List.Forall₂ (fun (w : OtfWave) (a : AmpFile) => w.wave = a.wave ∧ a.events.length = f.rows.length ∧
      ∀ ev < f.rows.length, ∃ z, w.amp ev = some z ∧ a.events.getD ev [] = [z]) waves f.amps)
    (r s : Meta)
    (h1 : calcIntegrals md5 bytes keyWaves git bins none [f] = .ok (some r))
    (h2 : calcOnTheFly md5 bytes keyWaves waves f.evtMeta metaBins f.rows.length (fun ev => f.rows.getD ev fun _ => none) bins (-1) 0 =
      .ok (some s)) :
    ∃ M N, r.matrix = some M ∧ s.matrix = some N ∧ M.names = N.names ∧ M.nmbEvents = N.nmbEvents ∧
      ∀ a ∈ M.names, ∀ b ∈ M.names, M.elementByName a b = N.elementByName a b := by
  have hwv : f.waves = waves.map (·.wave) := by
    unfold EvtFile.waves
    clear * - hsame
    generalize f.amps = as at hsame
    induction hsame with
    | nil => rfl
    | cons h _ ih => simp [ih, h.1]
  obtain ⟨M, m1, m2, m3, m4, m5, _⟩ := calc_result md5 bytes keyWaves hmd git bins none f [] (by
    intro x hx
    rw [List.mem_singleton] at hx; subst hx
    rw [hwv]; exact hn) r h1
  have hc := otf_core md5 bytes keyWaves hmd waves hn f.evtMeta metaBins f.rows.length (fun ev => f.rows.getD ev fun _ => none) bins (-1) 0
  dsimp only at hc
  rw [if_neg hbins, massFix_id bins hmev] at hc
  have hevs : otfEvents bins (fun ev => f.rows.getD ev fun _ => none) 0 (otfLast f.rows.length (-1) 0) = f.inBin bins := by
    unfold otfEvents EvtFile.inBin otfLast
    simp
  rw [hevs] at hc
  by_cases hC : OtfConsistent keyWaves waves (f.inBin bins)
  · obtain ⟨s', N, h', hw⟩ := hc.1 hC
    rw [h2] at h'
    cases h'
    have hev : eventsIn bins [f] = (f.inBin bins).length := by simp [eventsIn]
    refine ⟨M, N, m1, hw.matrix, by rw [m3, hw.names, hwv], by rw [m4, hw.events, hev], fun a ha b hb => ?_⟩
    have ha' : a ∈ N.names := by rw [hw.names, ← hwv, ← m3]; exact ha
    have hb' : b ∈ N.names := by rw [hw.names, ← hwv, ← m3]; exact hb
    rw [m3] at ha hb
    rw [(m5 a ha b hb).2, hw.elements a ha' b hb', hev]
    have hamp : ∀ c ∈ f.waves, ∀ ev ∈ f.inBin bins, f.amp c ev = [otfAmp waves c ev] := by
      intro c hcm ev hev
      have hlt : ev < f.rows.length := by
        unfold EvtFile.inBin at hev
        exact List.mem_range.1 (List.mem_of_mem_filter hev)
      unfold EvtFile.amp otfAmp
      clear * - hsame hcm hlt hwv
      have key : ∀ (ws : List OtfWave) (as : List AmpFile), List.Forall₂ (fun (w : OtfWave) (a : AmpFile) => w.wave = a.wave ∧
          a.events.length = f.rows.length ∧ ∀ ev < f.rows.length, ∃ z, w.amp ev = some z ∧ a.events.getD ev [] = [z]) ws as →
          c ∈ as.map (·.wave) → ((as.find? (·.wave = c)).map fun a => a.events.getD ev []).getD [] =
            [((ws.find? (·.wave = c)).bind (·.amp ev)).getD 0] := by
        intro ws as hF
        induction hF with
        | nil => intro h; simp at h
        | @cons w a ws as h hF ih =>
          intro hm
          obtain ⟨e1, e2, e3⟩ := h
          by_cases hq : a.wave = c
          · obtain ⟨z, z1, z2⟩ := e3 ev hlt
            rw [List.find?_cons_of_pos (by simpa using hq), List.find?_cons_of_pos (by simpa [e1] using hq)]
            simp only [Option.map_some, Option.getD_some, Option.bind_some, z1, z2]
          · rw [List.find?_cons_of_neg (by simpa using hq), List.find?_cons_of_neg (by simpa [e1] using hq)]
            apply ih
            rcases List.mem_cons.1 hm with e | hm
            · exact absurd e.symm hq
            · exact hm
      exact key waves f.amps hsame hcm
    congr 2
    unfold totalOf otfTotal
    simp only [List.map_cons, List.map_nil, List.sum_cons, List.sum_nil, add_zero]
    unfold EvtFile.total
    have hz : ∀ l : List ℕ, (∀ ev ∈ l, ev ∈ f.inBin bins) → ∀ n i, ((l.zipIdx i).map fun ek =>
        ((eventWeight none n ek.2 : ℝ) : ℂ) * incoherent (f.amp a ek.1) (f.amp b ek.1)).sum =
        (l.map fun ev => otfAmp waves a ev * (starRingEnd ℂ) (otfAmp waves b ev)).sum := by
      intro l
      induction l with
      | nil => intro _ n i; rfl
      | cons x l ih =>
        intro hl n i
        rw [List.zipIdx_cons, List.map_cons, List.sum_cons, List.map_cons, List.sum_cons, ih (fun ev hev => hl ev (by simp [hev])),
          hamp a ha x (hl x (by simp)), hamp b hb x (hl x (by simp))]
        simp [eventWeight, incoherent]
    exact hz (f.inBin bins) (fun ev h => h) _ 0
  · rw [hc.2 hC] at h2
    simp at h2

end Rpwa.IntMeta

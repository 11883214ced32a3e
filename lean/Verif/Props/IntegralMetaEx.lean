import Verif.Props.IntegralOtf
/-! # C89: concrete cases and findings -/
namespace Rpwa.IntMeta.Ex
open Rpwa.Integral Rpwa.Storage Rpwa.IntMeta

/-- a hash function that is never empty: the number of bytes. -/
def md5 (l : List UInt8) : String := "h" ++ String.ofList (List.replicate l.length '0')

theorem md5_ne (l : List UInt8) : md5 l ≠ "" := by
  intro h
  have := congrArg (fun s => s.toList.length) h
  simp [md5] at this

/-- one byte for each number. -/
def bytes (_ : ℂ) : List UInt8 := [0]

/-- a key file describes the wave with its own text as name. -/
def keyWaves (c : String) : List (Option String) := [some c]

/-- two events, with masses 1.5 and 2.5. -/
noncomputable def rows : List (String → Option ℝ) := [fun _ => some 1.5, fun _ => some 2.5]

/-- an event file with two waves `A` and `B`; `h`: prefix of the hashes. -/
noncomputable def file (evt ha hb : String) (z : ℂ) : EvtFile :=
  ⟨{ EventMeta.default with contentHash := evt }, rows, [⟨"A", "A", ha, [[z], [0]]⟩, ⟨"B", "B", hb, [[1], [0]]⟩]⟩

noncomputable def bins : BinMap := [("mass", (1, 2))]

theorem inBin_eq (evt ha hb : String) (z : ℂ) : (file evt ha hb z).inBin bins = [0] := by
  have h0 : InBin bins (fun _ => some 1.5) := by
    intro v lo hi h
    simp only [bins, List.mem_singleton, Prod.mk.injEq] at h
    obtain ⟨rfl, rfl, rfl⟩ := h
    exact ⟨1.5, rfl, by norm_num, by norm_num⟩
  have h1 : ¬ InBin bins (fun _ => some 2.5) := by
    intro h
    obtain ⟨x, hx, _, h2⟩ := h "mass" 1 2 (by simp [bins])
    cases hx
    norm_num at h2
  unfold EvtFile.inBin
  show List.filter _ [0, 1] = [0]
  simp [file, rows, h0, h1]

theorem file_fits (evt ha hb : String) (z : ℂ) : (file evt ha hb z).Fits none bins where
  someWaves := by simp [file]
  someEvents := by simp [file, rows]
  sameLength := by simp [file, rows]
  subAmps := by
    intro ev hev
    rw [inBin_eq, List.mem_singleton] at hev
    subst hev
    simp [file]
  enoughWeights := by intro ws h; cases h

/-- the hypotheses of `calc_succeeds_iff` and `calc_result` are met by two event files. -/
theorem consistent : Consistent keyWaves none bins (file "e" "h1" "h2" Complex.I) [file "f" "h3" "h4" 2] where
  binned := by simp [bins]
  fits := by
    intro f hf
    simp only [List.mem_cons, List.not_mem_nil, or_false] at hf
    rcases hf with rfl | rfl <;> exact file_fits _ _ _ _
  different := by simp [file, SameEvents]
  keyFiles := by simp [file]
  sameKeyFiles := by simp [file]
  hashes := by simp [file]
  sameWaves := by simp [file, EvtFile.waves]
  described := by simp [file, keyWaves, EvtFile.waves]
  number := by simp [file, keyWaves]

theorem waves_nodup (evt ha hb : String) (z : ℂ) : (file evt ha hb z).waves.Nodup := by
  simp [file, EvtFile.waves]

theorem waves_nodup' (z z' : ℂ) (e a b e' a' b' : String) : ∀ f ∈ [file e a b z, file e' a' b' z'], f.waves.Nodup := by
  intro f hf
  simp only [List.mem_cons, List.not_mem_nil, or_false] at hf
  rcases hf with rfl | rfl <;> exact waves_nodup _ _ _ _

theorem total_eq (evt ha hb : String) (z : ℂ) : (file evt ha hb z).total none bins "A" "B" = z := by
  unfold EvtFile.total
  rw [inBin_eq]
  simp [file, EvtFile.amp, incoherent, eventWeight]

/-- the integral of these two files: `(i · 1 + 2 · 1) / 2`. -/
theorem calc_example : ∃ r M, calcIntegrals md5 bytes keyWaves "v1" bins none [file "e" "h1" "h2" Complex.I, file "f" "h3" "h4" 2] = .ok (some r) ∧
    r.matrix = some M ∧ M.nmbEvents = 2 ∧ M.elementByName "A" "B" = .ok ((Complex.I + 2) / 2) ∧ r.ampHashes = ["h1", "h2", "h3", "h4"] := by
  obtain ⟨r, h⟩ := (calc_succeeds_iff md5 bytes keyWaves md5_ne "v1" bins none (file "e" "h1" "h2" Complex.I) [file "f" "h3" "h4" 2]
    (waves_nodup' _ _ _ _ _ _ _ _)).2 consistent
  obtain ⟨M, m1, m2, m3, m4, m5, m6, m7, m8, m9, m10, m11, m12⟩ := calc_result md5 bytes keyWaves md5_ne "v1" bins none _ _ (waves_nodup' _ _ _ _ _ _ _ _) r h
  have he : eventsIn bins [file "e" "h1" "h2" Complex.I, file "f" "h3" "h4" 2] = 2 := by simp [eventsIn, inBin_eq]
  refine ⟨r, M, h, m1, by rw [m4, he], ?_, ?_⟩
  · rw [(m5 "A" (by simp [file, EvtFile.waves]) "B" (by simp [file, EvtFile.waves])).2, he]
    simp [totalOf, total_eq]
  · rw [m12]; simp [file]

/-- finding: two waves whose amplitudes vanish for all events have amplitude files with the same hash; their integrals are refused, although
`addAmplitudeHash` is meant to accept the hash of a vanishing amplitude any number of times: it is compared with a hash that is only set after
the integration. -/
theorem vanishing_waves_refused (md5 : List UInt8 → String) (bytes : ℂ → List UInt8) (keyWaves : String → List (Option String))
    (md5_ne : ∀ l, md5 l ≠ "") (git hash : String) (hh : hash ≠ "") :
    ¬ ∃ r, calcIntegrals md5 bytes keyWaves git bins none [file "e" hash hash 0] = .ok (some r) := by
  intro h
  have := ((calc_succeeds_iff md5 bytes keyWaves md5_ne git bins none (file "e" hash hash 0) [] (by
    intro f hf; rw [List.mem_singleton] at hf; subst hf; exact waves_nodup _ _ _ _)).1 h).hashes
  simp [file, hh] at this

/-! ### merging -/

/-- metadata of an integral matrix of the wave `A`. -/
noncomputable def mat (n : ℕ) (z : ℂ) : IntMat := ⟨1, ["A"], n, 1, 1, fun _ _ => z, []⟩

noncomputable def integrals (evt hash : String) (n : ℕ) (lo hi : ℝ) (z : ℂ) : Meta :=
  ⟨"c", "v1", "", some (mat n z), [hash], ["A"], [("mass", (lo, hi))], [{ EventMeta.default with contentHash := evt }]⟩

theorem mat_wf (n : ℕ) (z : ℂ) : (mat n z).WF := by
  constructor <;> simp [mat]

theorem tidy (evt hash : String) (n : ℕ) (lo hi : ℝ) (z : ℂ) : (integrals evt hash n lo hi z).Tidy where
  hashes := by simp [integrals]
  events := by simp [integrals]
  bins := by simp [integrals]

/-- the hypotheses of `merge_result` are met. -/
theorem mergeable : Mergeable (integrals "e" "h1" 3 1 2 5) (integrals "f" "h2" 4 2 3 7) (mat 3 5) (mat 4 7) where
  waves := by simp [mat]
  git := rfl
  keyFiles := by simp [integrals]
  hashes := by simp [integrals]
  bins := by simp [integrals]
  events := by simp [integrals, SameEvents]

theorem merge_example : ∃ r R, (integrals "e" "h1" 3 1 2 5).merge md5 bytes (integrals "f" "h2" 4 2 3 7) = .ok (true, r) ∧
    r.matrix = some R ∧ R.nmbEvents = 7 ∧ R.entry "A" "A" = 12 ∧ ("mass", ((1 : ℝ), (3 : ℝ))) ∈ r.bins := by
  obtain ⟨r, h⟩ := (merge_succeeds_iff md5 bytes md5_ne _ _ (mat 3 5) (mat 4 7) rfl rfl (mat_wf _ _) (mat_wf _ _) (by simp [mat]) (by simp [mat])
    (tidy _ _ _ _ _ _) (tidy _ _ _ _ _ _)).2 mergeable
  obtain ⟨R, r1, r2, r3, r4, r5, r6, r7, r8, r9, r10, r11, r12, r13⟩ := merge_result md5 bytes md5_ne _ _ r (mat 3 5) (mat 4 7) rfl rfl
    (mat_wf _ _) (mat_wf _ _) (tidy _ _ _ _ _ _) (tidy _ _ _ _ _ _) h
  refine ⟨r, R, h, r1, by rw [r4]; rfl, ?_, ?_⟩
  · rw [r5 "A" (by simp [mat]) "A" (by simp [mat])]
    simp [IntMat.entry, mat]; norm_num
  · have := r13.2 "mass" (1, 2) (2, 3) (by simp [integrals]) (by simp [integrals])
    norm_num at this
    exact this

/-- finding: a merge that is refused because the event file is the same leaves the amplitude hashes of the second object and the enclosing bin
in the first one, whose matrix is unchanged. -/
theorem refused_merge_keeps_hashes : ∃ r, (integrals "e" "h1" 3 1 2 5).merge md5 bytes (integrals "e" "h2" 4 2 3 7) = .ok (false, r) ∧
    r.ampHashes = ["h1", "h2"] ∧ r.bins = [("mass", (1, 3))] ∧ r.matrix = some (mat 3 5) := by
  refine ⟨{ integrals "e" "h1" 3 1 2 5 with
    ampHashes := ["h1", "h2"]
    bins := [("mass", (1, 3))] }, ?_, rfl, rfl, rfl⟩
  have hs : sameEvt { EventMeta.default with contentHash := "e" } { EventMeta.default with contentHash := "e" } = true :=
    (sameEvt_iff _ _).2 ⟨rfl, rfl, rfl, rfl, rfl, rfl⟩
  have h1 : (min (2 : ℝ) 1) = 1 := by norm_num
  have h2 : (max (3 : ℝ) 2) = 3 := by norm_num
  simp [Meta.merge, integrals, mat, Meta.hasKeyFile, Meta.addHashes, Meta.addHash, Meta.mergeBins, unionBins, Meta.addEvts, Meta.addEvt, hs, h1, h2]

/-- finding: the merged bin of two bins that do not touch covers what neither of them covers. -/
theorem merged_bin_has_gap : ∃ r, (integrals "e" "h1" 3 1 2 5).merge md5 bytes (integrals "f" "h2" 4 8 9 7) = .ok (true, r) ∧
    ("mass", ((1 : ℝ), (9 : ℝ))) ∈ r.bins ∧
    ∃ x : String → Option ℝ, InBin [("mass", (1, 9))] x ∧ ¬ InBin [("mass", (1, 2))] x ∧ ¬ InBin [("mass", (8, 9))] x := by
  have hm : Mergeable (integrals "e" "h1" 3 1 2 5) (integrals "f" "h2" 4 8 9 7) (mat 3 5) (mat 4 7) := by
    constructor <;> simp [mat, integrals, SameEvents]
  obtain ⟨r, h⟩ := (merge_succeeds_iff md5 bytes md5_ne _ _ (mat 3 5) (mat 4 7) rfl rfl (mat_wf _ _) (mat_wf _ _) (by simp [mat]) (by simp [mat])
    (tidy _ _ _ _ _ _) (tidy _ _ _ _ _ _)).2 hm
  obtain ⟨R, r1, r2, r3, r4, r5, r6, r7, r8, r9, r10, r11, r12, r13⟩ := merge_result md5 bytes md5_ne _ _ r (mat 3 5) (mat 4 7) rfl rfl
    (mat_wf _ _) (mat_wf _ _) (tidy _ _ _ _ _ _) (tidy _ _ _ _ _ _) h
  refine ⟨r, h, ?_, fun _ => some 5, ?_, ?_, ?_⟩
  · have := r13.2 "mass" (1, 2) (8, 9) (by simp [integrals]) (by simp [integrals])
    norm_num at this
    exact this
  · intro v lo hi h
    simp only [List.mem_singleton, Prod.mk.injEq] at h
    obtain ⟨rfl, rfl, rfl⟩ := h
    exact ⟨5, rfl, by norm_num, by norm_num⟩
  · intro h
    obtain ⟨x, hx, _, h2⟩ := h "mass" 1 2 (by simp)
    cases hx; norm_num at h2
  · intro h
    obtain ⟨x, hx, h2, _⟩ := h "mass" 8 9 (by simp)
    cases hx; norm_num at h2

/-- finding: integrals of different mass bins of one event file cannot be merged. -/
theorem same_file_not_merged (md5 : List UInt8 → String) (bytes : ℂ → List UInt8) (md5_ne : ∀ l, md5 l ≠ "") (m s : Meta) (M S : IntMat) (hm : m.matrix = some M) (hs : s.matrix = some S) (hM : M.WF) (hS : S.WF)
    (nM : M.names.Nodup) (nS : S.names.Nodup) (tm : m.Tidy) (ts : s.Tidy) (e : EventMeta) (h1 : e ∈ m.evtMetas) (h2 : e ∈ s.evtMetas) :
    ¬ ∃ r, m.merge md5 bytes s = .ok (true, r) := by
  intro h
  have := ((merge_succeeds_iff md5 bytes md5_ne m s M S hm hs hM hS nM nS tm ts).1 h).events
  exact (List.pairwise_append.1 this).2.2 e h1 e h2 ⟨rfl, rfl, rfl, rfl, rfl, rfl⟩

/-! ### on the fly -/

/-- the waves of `file`, calculated. -/
noncomputable def waves (z : ℂ) : List OtfWave := [⟨"A", "A", fun ev => some (if ev = 0 then z else 0)⟩, ⟨"B", "B", fun ev => some (if ev = 0 then 1 else 0)⟩]

/-- the hypotheses of `otf_agrees` are met. -/
theorem agrees_example : ∃ r s, calcIntegrals md5 bytes keyWaves "v1" bins none [file "e" "h1" "h2" Complex.I] = .ok (some r) ∧
    calcOnTheFly md5 bytes keyWaves (waves Complex.I) (file "e" "h1" "h2" Complex.I).evtMeta [] 2 (fun ev => rows.getD ev fun _ => none) bins (-1) 0 =
      .ok (some s) ∧
    NotMeV bins ∧ List.Forall₂ (fun (w : OtfWave) (a : AmpFile) => w.wave = a.wave ∧ a.events.length = 2 ∧
      ∀ ev < 2, ∃ z, w.amp ev = some z ∧ a.events.getD ev [] = [z]) (waves Complex.I) (file "e" "h1" "h2" Complex.I).amps := by
  have hmev : NotMeV bins := by
    intro lo hi h
    simp only [bins, List.mem_singleton, Prod.mk.injEq, true_and] at h
    obtain ⟨rfl, rfl⟩ := h
    norm_num
  obtain ⟨r, h⟩ := (calc_succeeds_iff md5 bytes keyWaves md5_ne "v1" bins none (file "e" "h1" "h2" Complex.I) [] (by
    intro f hf; rw [List.mem_singleton] at hf; subst hf; exact waves_nodup _ _ _ _)).2
    { binned := by simp [bins]
      fits := by
        intro f hf
        rw [List.mem_singleton] at hf; subst hf; exact file_fits _ _ _ _
      different := by simp
      keyFiles := by simp [file]
      sameKeyFiles := by simp
      hashes := by simp [file]
      sameWaves := by simp
      described := by simp [file, keyWaves, EvtFile.waves]
      number := by simp [file, keyWaves] }
  have hc := (otf_core md5 bytes keyWaves md5_ne (waves Complex.I) (by simp [waves]) (file "e" "h1" "h2" Complex.I).evtMeta [] 2
    (fun ev => rows.getD ev fun _ => none) bins (-1) 0).1
    { someWaves := by simp [waves]
      keyFiles := by simp [waves]
      readable := by simp [waves]
      described := by simp [waves, keyWaves]
      number := by simp [waves, keyWaves] }
  obtain ⟨s, M, hs, _⟩ := hc
  refine ⟨r, s, h, hs, hmev, ?_⟩
  refine .cons ⟨rfl, rfl, ?_⟩ (.cons ⟨rfl, rfl, ?_⟩ .nil)
  · intro ev hev
    match ev, hev with
    | 0, _ => simp
    | 1, _ => simp
  · intro ev hev
    match ev, hev with
    | 0, _ => simp
    | 1, _ => simp

/-- finding: the file written on the fly has no git hash; it can therefore not be merged with one written by `calcIntegrals`. -/
theorem otf_not_merged (md5 : List UInt8 → String) (bytes : ℂ → List UInt8) (keyWaves : String → List (Option String))
    (md5_ne : ∀ l, md5 l ≠ "") (ws : List OtfWave) (hn : (ws.map (·.wave)).Nodup) (evtMeta : EventMeta)
    (metaBins : BinMap) (nEvents : ℕ) (rows : ℕ → String → Option ℝ) (binsArg : BinMap) (maxNmbEvents : ℤ) (startEvent : ℕ)
    (hb : (binsArg.map (·.1)).Nodup) (hmb : (metaBins.map (·.1)).Nodup) (r s : Meta) (S : IntMat)
    (h : calcOnTheFly md5 bytes keyWaves ws evtMeta metaBins nEvents rows binsArg maxNmbEvents startEvent = .ok (some r))
    (hs : s.matrix = some S) (hg : s.gitHash ≠ "") : ∃ r', r.merge md5 bytes s = .ok (false, r') := by
  obtain ⟨bins, M, _, hw⟩ := otf_result md5 bytes keyWaves md5_ne ws hn evtMeta metaBins nEvents rows binsArg maxNmbEvents startEvent hb hmb r h
  unfold Meta.merge
  rw [hw.matrix, hs]
  dsimp only
  by_cases h1 : S.nmbWaves ≠ M.nmbWaves
  · rw [if_pos h1]; exact ⟨_, rfl⟩
  · rw [if_neg h1, if_pos (by rw [hw.git]; exact hg)]; exact ⟨_, rfl⟩

end Rpwa.IntMeta.Ex

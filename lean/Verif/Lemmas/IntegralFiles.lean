import Verif.Lemmas.IntegralMeta
/-! Lemmas for C89: the loop over the event files. -/
namespace Rpwa.IntMeta
open Rpwa.Integral Rpwa.Storage

/-- new hashes of an amplitude list. -/
def newHashes (z : String) (as : List AmpFile) : List String := (as.map (·.hash)).filter (· ≠ z)

theorem addAmp_eq (first : Bool) (m : Meta) (a : AmpFile) (m' : Meta) (hk : m.keyFiles.Nodup) (hh : m.ampHashes.Nodup) :
    addAmp first m a = some m' ↔
      (first = true → (m.keyFiles ++ [a.keyFile]).Nodup) ∧ (first = false → a.keyFile ∈ m.keyFiles) ∧
      (m.ampHashes ++ newHashes m.allZeroHash [a]).Nodup ∧
      m' = { m with keyFiles := (if first then m.keyFiles ++ [a.keyFile] else m.keyFiles), ampHashes := m.ampHashes ++ newHashes m.allZeroHash [a] } := by
  have key : ∀ m1 : Meta, m1.ampHashes = m.ampHashes → m1.allZeroHash = m.allZeroHash →
      ((match m1.addHash a.hash with
        | (true, m) => some m
        | (false, _) => none) = some m' ↔
        (m.ampHashes ++ newHashes m.allZeroHash [a]).Nodup ∧ m' = { m1 with ampHashes := m.ampHashes ++ newHashes m.allZeroHash [a] }) := by
    intro m1 e1 e2
    obtain ⟨s1, s2⟩ := addHashes_spec [a.hash] m1 (by rw [e1]; exact hh)
    have e3 : m1.addHashes [a.hash] = m1.addHash a.hash := by
      unfold Meta.addHashes
      split
      · next h => rw [h]
      · next h => rw [h]; rfl
    rw [e3, e1, e2] at s1 s2
    unfold newHashes
    cases hx : m1.addHash a.hash with
    | mk ok m2 =>
      rw [hx] at s1 s2
      cases ok with
      | true =>
        have := s2 rfl
        dsimp only at this ⊢
        constructor
        · intro h
          cases h
          refine ⟨s1.1 rfl, ?_⟩
          rw [this]; simp [e2]
        · rintro ⟨_, rfl⟩
          rw [this]; simp [e2]
      | false =>
        dsimp only
        exact ⟨fun h => by simp at h, fun h => absurd (s1.2 h.1) (by simp)⟩
  unfold addAmp
  cases first with
  | true =>
    simp only [if_true]
    unfold Meta.addKeyFile Meta.hasKeyFile
    by_cases hc : m.keyFiles.contains a.keyFile = true
    · rw [if_pos hc]
      dsimp only [Option.bind]
      refine ⟨fun h => by simp at h, fun h => ?_⟩
      have := (List.nodup_append.1 (h.1 trivial)).2.2 a.keyFile (by simpa using hc) a.keyFile (by simp)
      exact absurd rfl this
    · rw [if_neg hc]
      dsimp only [Option.bind]
      refine (key { m with keyFiles := m.keyFiles ++ [a.keyFile] } rfl rfl).trans ?_
      have hc' : a.keyFile ∉ m.keyFiles := by simpa using hc
      have : (m.keyFiles ++ [a.keyFile]).Nodup := by
        rw [List.nodup_append]
        refine ⟨hk, by simp, fun x hx y hy => ?_⟩
        rw [List.mem_singleton] at hy; subst hy
        rintro rfl; exact hc' hx
      simp [this]
  | false =>
    simp only [Bool.false_eq_true, if_false]
    unfold Meta.hasKeyFile
    by_cases hc : m.keyFiles.contains a.keyFile = true
    · rw [if_pos hc]
      dsimp only [Option.bind]
      refine (key m rfl rfl).trans ?_
      have : a.keyFile ∈ m.keyFiles := by simpa using hc
      simp [this]
    · rw [if_neg hc]
      dsimp only [Option.bind]
      refine ⟨fun h => by simp at h, fun h => ?_⟩
      exact absurd (h.2.1 trivial) (by simpa using hc)

theorem addAmps_iff (first : Bool) (as : List AmpFile) (m m' : Meta) (hk : m.keyFiles.Nodup) (hh : m.ampHashes.Nodup) :
    as.foldlM (addAmp first) m = some m' ↔
      (first = true → (m.keyFiles ++ as.map (·.keyFile)).Nodup) ∧ (first = false → ∀ a ∈ as, a.keyFile ∈ m.keyFiles) ∧
      (m.ampHashes ++ newHashes m.allZeroHash as).Nodup ∧
      m' = { m with keyFiles := (if first then m.keyFiles ++ as.map (·.keyFile) else m.keyFiles)
                    ampHashes := m.ampHashes ++ newHashes m.allZeroHash as } := by
  induction as generalizing m with
  | nil =>
    cases first <;> simp [newHashes, hk, hh, eq_comm]
  | cons a as ih =>
    rw [List.foldlM_cons, Option.bind_eq_bind, Option.bind_eq_some_iff]
    have split : newHashes m.allZeroHash (a :: as) = newHashes m.allZeroHash [a] ++ newHashes m.allZeroHash as := by
      unfold newHashes
      rw [← List.filter_append, ← List.map_append]; rfl
    rw [split]
    constructor
    · rintro ⟨m1, h1, h2⟩
      obtain ⟨c1, c2, c3, rfl⟩ := (addAmp_eq first m a m1 hk hh).1 h1
      have hk1 : (if first = true then m.keyFiles ++ [a.keyFile] else m.keyFiles).Nodup := by
        cases first
        · simpa using hk
        · simpa using c1 rfl
      obtain ⟨d1, d2, d3, rfl⟩ := (ih _ hk1 c3).1 h2
      refine ⟨fun hf => ?_, fun hf b hb => ?_, by simpa using d3, ?_⟩
      · have := d1 hf
        rw [if_pos hf] at this
        simpa using this
      · rcases List.mem_cons.1 hb with rfl | hb
        · exact c2 hf
        · have := d2 hf b hb
          rw [if_neg (by simp [hf])] at this
          exact this
      · cases first <;> simp
    · rintro ⟨d1, d2, d3, rfl⟩
      have c3 : (m.ampHashes ++ newHashes m.allZeroHash [a]).Nodup := by
        rw [← List.append_assoc] at d3
        exact (List.nodup_append.1 d3).1
      have c1 : first = true → (m.keyFiles ++ [a.keyFile]).Nodup := by
        intro hf
        have := d1 hf
        rw [List.map_cons, ← List.singleton_append, ← List.append_assoc] at this
        exact (List.nodup_append.1 this).1
      refine ⟨_, (addAmp_eq first m a _ hk hh).2 ⟨c1, fun hf => d2 hf a (by simp), c3, rfl⟩, ?_⟩
      have hk1 : (if first = true then m.keyFiles ++ [a.keyFile] else m.keyFiles).Nodup := by
        cases first
        · simpa using hk
        · simpa using c1 rfl
      refine (ih _ hk1 c3).2 ⟨fun hf => ?_, fun hf b hb => ?_, by simpa using d3, ?_⟩
      · have := d1 hf
        subst hf
        simpa using this
      · subst hf
        exact d2 rfl b (by simp [hb])
      · cases first <;> simp

/-- the integral matrices of a list of files. -/
def Integrates (bins : BinMap) (w : Option WeightFile) (f : EvtFile) (I : IntMat) : Prop :=
  empty.integrate f.trees (-1) w (some (f.binTest bins)) = .ok (true, I)

/-- all hashes of a list of files. -/
def fileHashes (z : String) (fs : List EvtFile) : List String := (fs.flatMap fun f => f.amps.map (·.hash)).filter (· ≠ z)

theorem calcFiles_step (bins : BinMap) (w : Option WeightFile) (f : EvtFile) (fs : List EvtFile) (m : Meta) (is : List IntMat)
    (out : Meta × List IntMat) (he : m.evtMetas.Pairwise fun a b => ¬ SameEvents a b) (hk : m.keyFiles.Nodup) (hh : m.ampHashes.Nodup) :
    calcFiles bins w (f :: fs) m is = .ok (some out) ↔
      ((m.evtMetas ++ [f.evtMeta]).Pairwise fun a b => ¬ SameEvents a b) ∧
      (is.isEmpty = true → (m.keyFiles ++ f.amps.map (·.keyFile)).Nodup) ∧
      (is.isEmpty = false → ∀ a ∈ f.amps, a.keyFile ∈ m.keyFiles) ∧
      (m.ampHashes ++ newHashes m.allZeroHash f.amps).Nodup ∧ bins ≠ [] ∧
      ∃ I, Integrates bins w f I ∧
        calcFiles bins w fs { m with
          keyFiles := (if is.isEmpty then m.keyFiles ++ f.amps.map (·.keyFile) else m.keyFiles)
          ampHashes := m.ampHashes ++ newHashes m.allZeroHash f.amps
          evtMetas := m.evtMetas ++ [f.evtMeta] } (is ++ [I]) = .ok (some out) := by
  rw [calcFiles]
  obtain ⟨e1, e2⟩ := addEvt_spec f.evtMeta m he
  cases hE : m.addEvt f.evtMeta with
  | mk ok m1 =>
    rw [hE] at e1 e2
    cases ok with
    | false =>
      dsimp only
      exact ⟨fun h => by simp at h, fun h => absurd (e1.2 h.1) (by simp)⟩
    | true =>
      have em := e2 rfl
      dsimp only at em ⊢
      subst em
      cases hA : f.amps.foldlM (addAmp is.isEmpty) { m with evtMetas := m.evtMetas ++ [f.evtMeta] } with
      | none =>
        dsimp only
        refine ⟨fun h => by simp at h, ?_⟩
        rintro ⟨_, c1, c2, c3, _⟩
        have := (addAmps_iff is.isEmpty f.amps { m with evtMetas := m.evtMetas ++ [f.evtMeta] } _ hk hh).2 ⟨c1, c2, c3, rfl⟩
        rw [hA] at this
        simp at this
      | some m2 =>
        obtain ⟨c1, c2, c3, rfl⟩ := (addAmps_iff is.isEmpty f.amps { m with evtMetas := m.evtMetas ++ [f.evtMeta] } m2 hk hh).1 hA
        dsimp only
        by_cases hb : bins = []
        · rw [if_pos hb]
          exact ⟨fun h => by simp at h, fun h => absurd hb h.2.2.2.2.1⟩
        rw [if_neg hb]
        constructor
        · intro h
          obtain ⟨⟨ok, I⟩, hI, h⟩ := Outcome.bind_eq_ok.1 h
          dsimp only at h
          cases ok with
          | false => simp at h
          | true => exact ⟨e1.1 rfl, c1, c2, c3, hb, I, hI, by simpa using h⟩
        · rintro ⟨_, _, _, _, _, I, hI, h⟩
          unfold Integrates at hI
          rw [hI]
          simpa using h

theorem calcFiles_rest (bins : BinMap) (w : Option WeightFile) (fs : List EvtFile) (m m' : Meta) (is is' : List IntMat) (hne : is ≠ [])
    (he : m.evtMetas.Pairwise fun a b => ¬ SameEvents a b) (hk : m.keyFiles.Nodup) (hh : m.ampHashes.Nodup) :
    calcFiles bins w fs m is = .ok (some (m', is')) ↔
      ((m.evtMetas ++ fs.map (·.evtMeta)).Pairwise fun a b => ¬ SameEvents a b) ∧
      (∀ f ∈ fs, ∀ a ∈ f.amps, a.keyFile ∈ m.keyFiles) ∧
      (m.ampHashes ++ fileHashes m.allZeroHash fs).Nodup ∧ (fs ≠ [] → bins ≠ []) ∧
      ∃ Is, is' = is ++ Is ∧ List.Forall₂ (Integrates bins w) fs Is ∧
        m' = { m with
          ampHashes := m.ampHashes ++ fileHashes m.allZeroHash fs
          evtMetas := m.evtMetas ++ fs.map (·.evtMeta) } := by
  induction fs generalizing m is with
  | nil =>
    simp only [calcFiles, Outcome.ok.injEq, Option.some.injEq, Prod.mk.injEq, List.map_nil, List.append_nil, he, fileHashes,
      List.flatMap_nil, List.filter_nil, hh, ne_eq, not_true_eq_false, List.forall₂_nil_left_iff, true_and]
    constructor
    · rintro ⟨rfl, rfl⟩
      exact ⟨by simp, by simp, [], by simp, rfl, rfl⟩
    · rintro ⟨_, _, Is, h, rfl, rfl⟩
      exact ⟨rfl, by simpa using h.symm⟩
  | cons f fs ih =>
    have hemp : is.isEmpty = false := by simpa using hne
    rw [calcFiles_step bins w f fs m is (m', is') he hk hh, hemp]
    have hsplit : fileHashes m.allZeroHash (f :: fs) = newHashes m.allZeroHash f.amps ++ fileHashes m.allZeroHash fs := by
      simp [fileHashes, newHashes]
    rw [hsplit]
    simp only [Bool.false_eq_true, if_false, false_imp_iff, true_imp_iff, true_and]
    constructor
    · rintro ⟨h1, h2, h3, h4, I, hI, h⟩
      obtain ⟨g1, g2, g3, g4, Is, g5, g6, g7⟩ := (ih { m with ampHashes := m.ampHashes ++ newHashes m.allZeroHash f.amps, evtMetas := m.evtMetas ++ [f.evtMeta] }
        (is ++ [I]) (by simp) h1 hk h3).1 h
      refine ⟨by simpa using g1, ?_, by simpa using g3, fun _ => h4, I :: Is, by simpa using g5, .cons hI g6, by simpa using g7⟩
      intro g hg a ha
      rcases List.mem_cons.1 hg with rfl | hg
      · exact h2 a ha
      · exact g2 g hg a ha
    · rintro ⟨g1, g2, g3, g4, Is, g5, g6, g7⟩
      cases g6 with
      | @cons _ I _ Is' hI g6 =>
        have h1 : (m.evtMetas ++ [f.evtMeta]).Pairwise fun a b => ¬ SameEvents a b := by
          rw [List.map_cons, ← List.singleton_append, ← List.append_assoc] at g1
          exact (List.pairwise_append.1 g1).1
        have h3 : (m.ampHashes ++ newHashes m.allZeroHash f.amps).Nodup := by
          rw [← List.append_assoc] at g3
          exact (List.nodup_append.1 g3).1
        refine ⟨h1, fun a ha => g2 f (by simp) a ha, h3, g4 (by simp), I, hI, ?_⟩
        refine (ih { m with ampHashes := m.ampHashes ++ newHashes m.allZeroHash f.amps, evtMetas := m.evtMetas ++ [f.evtMeta] }
          (is ++ [I]) (by simp) h1 hk h3).2 ⟨by simpa using g1, fun g hg => g2 g (by simp [hg]), by simpa using g3,
            fun _ => g4 (by simp), Is', by simpa using g5, g6, by simpa using g7⟩

/-- adding up matrices. -/
theorem addAll_ok (is : List IntMat) (i : IntMat) (hi : i.WF) (ni : i.names.Nodup) (his : ∀ x ∈ is, x.WF ∧ x.names.Nodup) :
    ((∃ M, is.foldlM (fun a b => a.addAssign b) i = .ok M) ↔ ∀ x ∈ is, i.names.Perm x.names) ∧
    ∀ M, is.foldlM (fun a b => a.addAssign b) i = .ok M → M.WF ∧ M.names = i.names ∧
      M.nmbEvents = i.nmbEvents + (is.map (·.nmbEvents)).sum ∧
      ∀ a ∈ i.names, ∀ b ∈ i.names, M.entry a b = i.entry a b + (is.map fun x => x.entry a b).sum := by
  induction is generalizing i with
  | nil =>
    refine ⟨by simp, ?_⟩
    intro M h
    simp only [List.foldlM_nil, Outcome.pure_eq, Outcome.ok.injEq] at h
    subst h
    exact ⟨hi, rfl, by simp, by simp⟩
  | cons x is ih =>
    rw [List.foldlM_cons]
    have hx := his x (by simp)
    have iff := addAssign_iff i x hi hx.1 ni hx.2
    constructor
    · constructor
      · rintro ⟨M, h⟩
        obtain ⟨j, hj, h⟩ := Outcome.bind_eq_ok.1 h
        obtain ⟨w, n, _, _⟩ := addAssign_by_name i x j hi hx.1 hj
        have := ((ih j w (by rw [n]; exact ni) fun y hy => his y (by simp [hy])).1).1 ⟨M, h⟩
        rw [n] at this
        intro y hy
        rcases List.mem_cons.1 hy with rfl | hy
        · exact iff.1.1 ⟨j, hj⟩
        · exact this y hy
      · intro h
        obtain ⟨j, hj⟩ := iff.1.2 (h x (by simp))
        obtain ⟨w, n, _, _⟩ := addAssign_by_name i x j hi hx.1 hj
        rw [hj]
        refine ((ih j w (by rw [n]; exact ni) fun y hy => his y (by simp [hy])).1).2 ?_
        rw [n]
        exact fun y hy => h y (by simp [hy])
    · intro M h
      obtain ⟨j, hj, h⟩ := Outcome.bind_eq_ok.1 h
      obtain ⟨w, n, e, v⟩ := addAssign_by_name i x j hi hx.1 hj
      obtain ⟨w', n', e', v'⟩ := (ih j w (by rw [n]; exact ni) fun y hy => his y (by simp [hy])).2 M h
      refine ⟨w', n'.trans n, ?_, ?_⟩
      · rw [e', e]; simp [add_assoc]
      · intro a ha b hb
        rw [v' a (by rw [n]; exact ha) b (by rw [n]; exact hb), v a ha b hb]
        simp [add_assoc]

/-! ### one event file -/

theorem integrates_iff (bins : BinMap) (w : Option WeightFile) (f : EvtFile) : (∃ I, Integrates bins w f I) ↔ f.Fits w bins := by
  unfold Integrates
  have hb : f.binTest bins = (f.rows.length, (f.binTest bins).2) := rfl
  rw [hb, integrate_succeeds_iff, binTest_inBin]
  have hmem : ∀ ev, ev ∈ f.inBin bins ↔ ev < f.rows.length ∧ (f.binTest bins).2 ev = true := by
    intro ev
    rw [← binTest_inBin, List.mem_filter, List.mem_range]
  constructor
  · rintro ⟨h1, h2, h3, h4, h5⟩
    refine ⟨by simpa [EvtFile.trees] using h1, fun hc => h2 (by rw [hc]; rfl), fun a ha => ?_, fun ev hev a ha => ?_, h5⟩
    · exact h3 ⟨a.wave, a.events⟩ (List.mem_map.2 ⟨a, ha, rfl⟩)
    · obtain ⟨e1, e2⟩ := (hmem ev).1 hev
      obtain ⟨g1, g2⟩ := h4 ev e1 e2 ⟨a.wave, a.events⟩ (List.mem_map.2 ⟨a, ha, rfl⟩)
      exact ⟨g1, fun b hb => g2 ⟨b.wave, b.events⟩ (List.mem_map.2 ⟨b, hb, rfl⟩)⟩
  · rintro ⟨h1, h2, h3, h4, h5⟩
    refine ⟨by simpa [EvtFile.trees] using h1, fun hc => h2 (List.length_eq_zero_iff.1 hc), ?_, ?_, h5⟩
    · intro t ht
      obtain ⟨a, ha, rfl⟩ := List.mem_map.1 ht
      exact h3 a ha
    · intro ev e1 e2 t ht
      obtain ⟨a, ha, rfl⟩ := List.mem_map.1 ht
      obtain ⟨g1, g2⟩ := h4 ev ((hmem ev).2 ⟨e1, e2⟩) a ha
      refine ⟨g1, fun u hu => ?_⟩
      obtain ⟨b, hb, rfl⟩ := List.mem_map.1 hu
      exact g2 b hb

theorem treeAmp_eq (f : EvtFile) (ev q : ℕ) (wave : String) : treeAmp f.trees ev q wave = (f.amp wave ev).getD q 0 := by
  unfold treeAmp EvtFile.amp EvtFile.trees
  rw [List.find?_map]
  cases h : f.amps.find? ((fun x : AmpTree => decide (x.wave = wave)) ∘ fun a => (⟨a.wave, a.events⟩ : AmpTree)) with
  | none =>
    have : f.amps.find? (fun x => decide (x.wave = wave)) = none := h
    rw [this]; rfl
  | some a =>
    have : f.amps.find? (fun x => decide (x.wave = wave)) = some a := h
    rw [this]; rfl

theorem amp_mem (f : EvtFile) (wave : String) (hw : wave ∈ f.waves) : ∃ a ∈ f.amps, ∀ ev, f.amp wave ev = a.events.getD ev [] := by
  unfold EvtFile.amp
  cases h : f.amps.find? (fun x => decide (x.wave = wave)) with
  | none =>
    obtain ⟨a, ha, e⟩ := List.mem_map.1 hw
    have := List.find?_eq_none.1 h a ha
    simp [e] at this
  | some a => exact ⟨a, List.mem_of_find?_eq_some h, fun ev => rfl⟩

theorem file_sum (bins : BinMap) (w : Option WeightFile) (f : EvtFile) (hf : f.Fits w bins) (a b : String) (ha : a ∈ f.waves)
    (hb : b ∈ f.waves) : sampleSum (treeSample f.trees (-1) w (some (f.binTest bins))) a b = f.total w bins a b := by
  have hlen : (f.trees.head?.map (·.events.length)).getD 0 = f.rows.length := by
    cases hA : f.amps with
    | nil => exact absurd hA hf.someWaves
    | cons x xs =>
      simp only [EvtFile.trees, hA, List.map_cons, List.head?_cons, Option.map_some, Option.getD_some]
      exact hf.sameLength x (by rw [hA]; simp)
  have hsel : selectedEvents f.trees (-1) (some (f.binTest bins)) = f.inBin bins := by
    unfold selectedEvents
    dsimp only
    rw [hlen, if_pos (by decide), ← binTest_inBin]
  unfold treeSample
  rw [hsel]
  unfold sampleSum EvtFile.total
  rw [List.map_flatMap, sum_flatMap']
  congr 1
  apply List.map_congr_left
  rintro ⟨ev, k⟩ hek
  have hev : ev ∈ f.inBin bins := by
    have := List.mem_zipIdx hek
    rw [this.2.2]; exact List.getElem_mem _
  dsimp only
  obtain ⟨x, hx, ex⟩ := amp_mem f a ha
  obtain ⟨y, hy, ey⟩ := amp_mem f b hb
  have hxy : (f.amp a ev).length = (f.amp b ev).length := by
    rw [ex, ey]; exact (hf.subAmps ev hev x hx).2 y hy
  have hn : nmbSub f.trees ev = (f.amp a ev).length := by
    unfold nmbSub
    cases hA : f.amps with
    | nil => exact absurd hA hf.someWaves
    | cons z zs =>
      simp only [EvtFile.trees, hA, List.map_cons, List.head?_cons, Option.map_some, Option.getD_some]
      rw [ex]
      exact (hf.subAmps ev hev z (by rw [hA]; simp)).2 x hx
  rw [hn, show incoherent (f.amp a ev) (f.amp b ev) = subSum (f.amp a ev) (f.amp b ev) from rfl, subSum_eq _ _ hxy,
    ← List.sum_map_mul_left, List.map_map]
  congr 1
  apply List.map_congr_left
  intro q _
  simp only [Function.comp]
  rw [treeAmp_eq, treeAmp_eq]; ring

theorem integrates_result (bins : BinMap) (w : Option WeightFile) (f : EvtFile) (hn : f.waves.Nodup) (I : IntMat)
    (h : Integrates bins w f I) :
    I.WF ∧ I.names = f.waves ∧ I.nmbEvents = (f.inBin bins).length ∧
      ∀ a ∈ f.waves, ∀ b ∈ f.waves, I.entry a b = f.total w bins a b := by
  have hf := (integrates_iff bins w f).1 ⟨I, h⟩
  have hw : f.trees.map (·.wave) = f.waves := by simp [EvtFile.trees, EvtFile.waves]
  obtain ⟨h1, h2, h3, _, h5⟩ := integrate_ok empty f.trees (-1) w (some (f.binTest bins)) empty_wf (by rw [hw]; exact hn) I h
  have hlen : (f.trees.head?.map (·.events.length)).getD 0 = f.rows.length := by
    cases hA : f.amps with
    | nil => exact absurd hA hf.someWaves
    | cons x xs =>
      simp only [EvtFile.trees, hA, List.map_cons, List.head?_cons, Option.map_some, Option.getD_some]
      exact hf.sameLength x (by rw [hA]; simp)
  refine ⟨h1, h2.trans hw, ?_, fun a ha b hb => ?_⟩
  · rw [h3]
    unfold selectedEvents
    dsimp only
    rw [hlen, if_pos (by decide), ← binTest_inBin]
  · rw [h5 a (by rw [h2, hw]; exact ha) b (by rw [h2, hw]; exact hb), file_sum bins w f hf a b ha hb]

end Rpwa.IntMeta

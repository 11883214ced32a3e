import Verif.Lemmas.IntegralMeta
/-! # C89: merging integral files and integrating amplitude files -/
namespace Rpwa.IntMeta
open Rpwa.Integral Rpwa.Storage

variable (md5 : List UInt8 → String) (bytes : ℂ → List UInt8)

/-- the state of the metadata lists that the interface maintains: no hash and no event file twice. -/
structure Meta.Tidy (m : Meta) : Prop where
  hashes : m.ampHashes.Nodup
  events : m.evtMetas.Pairwise fun a b => ¬ SameEvents a b
  bins : (m.bins.map (·.1)).Nodup

/-- C89: a merge succeeds exactly for metadata that fit together; if everything else fits but the waves differ, it aborts. -/
theorem merge_succeeds_iff (hmd : ∀ l, md5 l ≠ "") (m s : Meta) (M S : IntMat) (hm : m.matrix = some M) (hs : s.matrix = some S)
    (hM : M.WF) (hS : S.WF) (nM : M.names.Nodup) (nS : S.names.Nodup) (tm : m.Tidy) (ts : s.Tidy) :
    (∃ r, m.merge md5 bytes s = .ok (true, r)) ↔ Mergeable m s M S := by
  have hlen : S.nmbWaves ≠ M.nmbWaves → ¬ M.names.Perm S.names := by
    intro h hp
    rw [hS.waves, hM.waves] at h
    exact h hp.length_eq.symm
  unfold Meta.merge
  rw [hm, hs]
  dsimp only
  by_cases h1 : S.nmbWaves ≠ M.nmbWaves
  · rw [if_pos h1]
    exact ⟨fun ⟨r, h⟩ => by simp at h, fun h => absurd h.waves (hlen h1)⟩
  rw [if_neg h1]
  by_cases h2 : s.gitHash ≠ m.gitHash
  · rw [if_pos h2]
    exact ⟨fun ⟨r, h⟩ => by simp at h, fun h => absurd h.git h2⟩
  rw [if_neg h2]
  by_cases h3 : (s.keyFiles.any fun c => !m.hasKeyFile c) = true
  · rw [if_pos h3]
    refine ⟨fun ⟨r, h⟩ => by simp at h, fun h => ?_⟩
    rw [List.any_eq_true] at h3
    obtain ⟨c, hc, hn⟩ := h3
    have := h.keyFiles hc
    simp [Meta.hasKeyFile, this] at hn
  rw [if_neg h3]
  have k3 : s.keyFiles ⊆ m.keyFiles := by
    intro c hc
    by_contra hn
    exact h3 (List.any_eq_true.2 ⟨c, hc, by simpa [Meta.hasKeyFile] using hn⟩)
  obtain ⟨a1, a2⟩ := addHashes_spec s.ampHashes m tm.hashes
  cases hA : m.addHashes s.ampHashes with
  | mk okA mA =>
    rw [hA] at a1 a2
    cases okA with
    | false =>
      dsimp only
      exact ⟨fun ⟨r, h⟩ => by simp at h, fun h => absurd (a1.2 h.hashes) (by simp)⟩
    | true =>
      have eA := a2 rfl
      dsimp only at eA ⊢
      obtain ⟨b1, b2, _⟩ := mergeBins_spec mA s.bins (by rw [eA]; exact tm.bins) ts.bins
      cases hB : mA.mergeBins s.bins with
      | mk okB mB =>
        rw [hB] at b1 b2
        cases okB with
        | false =>
          dsimp only
          refine ⟨fun ⟨r, h⟩ => by simp at h, fun h => absurd (b1.2 ?_) (by simp)⟩
          rw [eA]; exact h.bins
        | true =>
          obtain ⟨l, eB, hull⟩ := b2 rfl
          dsimp only at eB ⊢
          obtain ⟨e1, e2⟩ := addEvts_spec s.evtMetas mB (by rw [eB, eA]; exact tm.events)
          cases hE : mB.addEvts s.evtMetas with
          | mk okE mE =>
            rw [hE] at e1 e2
            cases okE with
            | false =>
              dsimp only
              refine ⟨fun ⟨r, h⟩ => by simp at h, fun h => absurd (e1.2 ?_) (by simp)⟩
              rw [eB, eA]; exact h.events
            | true =>
              dsimp only
              constructor
              · rintro ⟨r, h⟩
                obtain ⟨M', hM', _⟩ := Outcome.bind_eq_ok.1 h
                have hp := ((addAssign_iff M S hM hS nM nS).1).1 ⟨M', hM'⟩
                refine ⟨hp, not_not.1 h2, k3, a1.1 rfl, ?_, ?_⟩
                · have := b1.1 rfl; rw [eA] at this; exact this
                · have := e1.1 rfl; rw [eB, eA] at this; exact this
              · intro h
                obtain ⟨M', hM'⟩ := ((addAssign_iff M S hM hS nM nS).1).2 h.waves
                obtain ⟨w', _⟩ := addAssign_by_name M S M' hM hS hM'
                rw [hM']
                simp only [Outcome.ok_bind]
                rw [setHash_ok md5 bytes hmd _ M' rfl w']
                exact ⟨_, rfl⟩

/-- C89: what a successful merge leaves: the sums of both matrices wave by wave, all amplitude hashes and event files of both, the enclosing
bin and a hash that belongs to the new matrix. -/
theorem merge_result (hmd : ∀ l, md5 l ≠ "") (m s r : Meta) (M S : IntMat) (hm : m.matrix = some M) (hs : s.matrix = some S)
    (hM : M.WF) (hS : S.WF) (tm : m.Tidy) (ts : s.Tidy) (h : m.merge md5 bytes s = .ok (true, r)) :
    ∃ R, r.matrix = some R ∧ R.WF ∧ R.names = M.names ∧ R.nmbEvents = M.nmbEvents + S.nmbEvents ∧
      (∀ a ∈ M.names, ∀ b ∈ M.names, R.entry a b = M.entry a b + S.entry a b) ∧
      r.contentHash = elementHash md5 bytes R ∧ r.recalculateHash md5 bytes = .ok r.contentHash ∧
      r.gitHash = m.gitHash ∧ r.keyFiles = m.keyFiles ∧ r.allZeroHash = m.allZeroHash ∧
      r.ampHashes = m.ampHashes ++ s.ampHashes.filter (· ≠ m.allZeroHash) ∧
      r.evtMetas = m.evtMetas ++ s.evtMetas ∧ Hull m.bins s.bins r.bins := by
  unfold Meta.merge at h
  rw [hm, hs] at h
  dsimp only at h
  by_cases h1 : S.nmbWaves ≠ M.nmbWaves
  · rw [if_pos h1] at h; simp at h
  rw [if_neg h1] at h
  by_cases h2 : s.gitHash ≠ m.gitHash
  · rw [if_pos h2] at h; simp at h
  rw [if_neg h2] at h
  by_cases h3 : (s.keyFiles.any fun c => !m.hasKeyFile c) = true
  · rw [if_pos h3] at h; simp at h
  rw [if_neg h3] at h
  obtain ⟨a1, a2⟩ := addHashes_spec s.ampHashes m tm.hashes
  cases hA : m.addHashes s.ampHashes with
  | mk okA mA =>
    rw [hA] at a1 a2 h
    cases okA with
    | false => simp at h
    | true =>
      have eA := a2 rfl
      dsimp only at eA h
      obtain ⟨b1, b2, _⟩ := mergeBins_spec mA s.bins (by rw [eA]; exact tm.bins) ts.bins
      cases hB : mA.mergeBins s.bins with
      | mk okB mB =>
        rw [hB] at b1 b2 h
        cases okB with
        | false => simp at h
        | true =>
          obtain ⟨l, eB, hull⟩ := b2 rfl
          dsimp only at eB h
          obtain ⟨e1, e2⟩ := addEvts_spec s.evtMetas mB (by rw [eB, eA]; exact tm.events)
          cases hE : mB.addEvts s.evtMetas with
          | mk okE mE =>
            rw [hE] at e1 e2 h
            cases okE with
            | false => simp at h
            | true =>
              have eE := e2 rfl
              dsimp only at eE h
              obtain ⟨M', hM', hset⟩ := Outcome.bind_eq_ok.1 h
              obtain ⟨w', n', ev', en'⟩ := addAssign_by_name M S M' hM hS hM'
              rw [setHash_ok md5 bytes hmd _ M' rfl w'] at hset
              have hr := (Prod.ext_iff.1 (Outcome.ok.inj hset)).2
              dsimp only at hr
              subst hr
              subst eE eB eA
              exact ⟨M', rfl, w', n', ev', en', rfl, recalculateHash_ok md5 bytes _ M' rfl w', rfl, rfl, rfl, rfl, rfl, hull⟩

/-- C89: a refused merge changes neither the integrals nor their hash, key files and version. (It can change the lists of amplitude hashes, of
event files and the bin: see `refused_merge_keeps_hashes` in Props/IntegralMetaEx.) -/
theorem merge_refused (hmd : ∀ l, md5 l ≠ "") (m s r : Meta) (M S : IntMat) (hm : m.matrix = some M) (hs : s.matrix = some S)
    (hM : M.WF) (hS : S.WF) (tm : m.Tidy) (ts : s.Tidy)
    (h : m.merge md5 bytes s = .ok (false, r)) :
    r.matrix = m.matrix ∧ r.contentHash = m.contentHash ∧ r.keyFiles = m.keyFiles ∧ r.gitHash = m.gitHash ∧
      r.allZeroHash = m.allZeroHash := by
  have keepH : ∀ (hs : List String) (m : Meta), (m.addHashes hs).2.matrix = m.matrix ∧ (m.addHashes hs).2.contentHash = m.contentHash ∧
      (m.addHashes hs).2.keyFiles = m.keyFiles ∧ (m.addHashes hs).2.gitHash = m.gitHash ∧
      (m.addHashes hs).2.allZeroHash = m.allZeroHash := by
    intro hs
    induction hs with
    | nil => intro m; exact ⟨rfl, rfl, rfl, rfl, rfl⟩
    | cons x hs ih =>
      intro m
      unfold Meta.addHashes Meta.addHash
      by_cases h0 : x = m.allZeroHash
      · rw [if_pos h0]; exact ih m
      · rw [if_neg h0]
        by_cases h1 : m.ampHashes.contains x = true
        · rw [if_pos h1]; exact ⟨rfl, rfl, rfl, rfl, rfl⟩
        · rw [if_neg h1]; exact ih _
  have keepE : ∀ (es : List EventMeta) (m : Meta), (m.addEvts es).2.matrix = m.matrix ∧ (m.addEvts es).2.contentHash = m.contentHash ∧
      (m.addEvts es).2.keyFiles = m.keyFiles ∧ (m.addEvts es).2.gitHash = m.gitHash ∧
      (m.addEvts es).2.allZeroHash = m.allZeroHash := by
    intro es
    induction es with
    | nil => intro m; exact ⟨rfl, rfl, rfl, rfl, rfl⟩
    | cons x es ih =>
      intro m
      unfold Meta.addEvts Meta.addEvt
      by_cases h1 : m.evtMetas.any (fun y => sameEvt y x) = true
      · rw [if_pos h1]; exact ⟨rfl, rfl, rfl, rfl, rfl⟩
      · rw [if_neg h1]; exact ih _
  unfold Meta.merge at h
  rw [hm, hs] at h
  dsimp only at h
  by_cases h1 : S.nmbWaves ≠ M.nmbWaves
  · rw [if_pos h1] at h; cases h; exact ⟨rfl, rfl, rfl, rfl, rfl⟩
  rw [if_neg h1] at h
  by_cases h2 : s.gitHash ≠ m.gitHash
  · rw [if_pos h2] at h; cases h; exact ⟨rfl, rfl, rfl, rfl, rfl⟩
  rw [if_neg h2] at h
  by_cases h3 : (s.keyFiles.any fun c => !m.hasKeyFile c) = true
  · rw [if_pos h3] at h; cases h; exact ⟨rfl, rfl, rfl, rfl, rfl⟩
  rw [if_neg h3] at h
  have kA := keepH s.ampHashes m
  have a2 := (addHashes_spec s.ampHashes m tm.hashes).2
  cases hA : m.addHashes s.ampHashes with
  | mk okA mA =>
    rw [hA] at kA h a2
    cases okA with
    | false => cases h; exact kA
    | true =>
      have eA := a2 rfl
      dsimp only at kA h eA
      obtain ⟨_, b2, b3⟩ := mergeBins_spec mA s.bins (by rw [eA]; exact tm.bins) ts.bins
      cases hB : mA.mergeBins s.bins with
      | mk okB mB =>
        rw [hB] at b2 b3 h
        cases okB with
        | false =>
          cases h
          have := b3 rfl
          dsimp only at this
          rw [this]; exact kA
        | true =>
          obtain ⟨l, eB, _⟩ := b2 rfl
          dsimp only at eB h
          have kE := keepE s.evtMetas mB
          cases hE : mB.addEvts s.evtMetas with
          | mk okE mE =>
            rw [hE] at kE h
            have kE' : mE.matrix = m.matrix ∧ mE.contentHash = m.contentHash ∧ mE.keyFiles = m.keyFiles ∧ mE.gitHash = m.gitHash ∧
                mE.allZeroHash = m.allZeroHash := by
              dsimp only at kE
              rw [eB] at kE
              exact ⟨kE.1.trans kA.1, kE.2.1.trans kA.2.1, kE.2.2.1.trans kA.2.2.1, kE.2.2.2.1.trans kA.2.2.2.1, kE.2.2.2.2.trans kA.2.2.2.2⟩
            cases okE with
            | false => cases h; exact kE'
            | true =>
              dsimp only at h
              obtain ⟨M', hM', hset⟩ := Outcome.bind_eq_ok.1 h
              obtain ⟨w', _⟩ := addAssign_by_name M S M' hM hS hM'
              rw [setHash_ok md5 bytes hmd _ M' rfl w'] at hset
              simp at hset

end Rpwa.IntMeta

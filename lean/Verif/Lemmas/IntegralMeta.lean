import Verif.Spec.IntegralMeta
import Verif.Lemmas.IntegralRun
/-! Lemmas for C89. -/
namespace Rpwa.IntMeta
open Rpwa.Integral Rpwa.Storage

theorem sameEvt_iff (a b : EventMeta) : sameEvt a b = true ↔ SameEvents a b := by
  simp [sameEvt, SameEvents, and_assoc]

theorem inBoundaries_iff (bins : BinMap) (vars : String → Option ℝ) : inBoundaries bins vars = true ↔ InBin bins vars := by
  unfold inBoundaries InBin
  rw [List.all_eq_true]
  constructor
  · intro h v lo hi hm
    have := h _ hm
    dsimp only at this
    cases hv : vars v with
    | none => rw [hv] at this; simp at this
    | some x =>
      rw [hv] at this
      simp only [Bool.not_eq_true', Bool.or_eq_false_iff, decide_eq_false_iff_not, not_lt, ge_iff_le, not_le] at this
      exact ⟨x, rfl, this.1, this.2⟩
  · rintro h ⟨v, lo, hi⟩ hm
    obtain ⟨x, hx, h1, h2⟩ := h v lo hi hm
    dsimp only
    rw [hx]
    simp [h1, h2]

theorem binTest_inBin (f : EvtFile) (bins : BinMap) :
    (List.range f.rows.length).filter (f.binTest bins).2 = f.inBin bins := by
  classical
  unfold EvtFile.inBin EvtFile.binTest
  apply List.filter_congr
  intro ev _
  rw [Bool.eq_iff_iff, inBoundaries_iff, decide_eq_true_iff]

/-! ### the metadata lists -/

theorem addHashes_spec (hs : List String) (m : Meta) (hm : m.ampHashes.Nodup) :
    ((m.addHashes hs).1 = true ↔ (m.ampHashes ++ hs.filter (· ≠ m.allZeroHash)).Nodup) ∧
    ((m.addHashes hs).1 = true → (m.addHashes hs).2 = { m with ampHashes := m.ampHashes ++ hs.filter (· ≠ m.allZeroHash) }) := by
  induction hs generalizing m with
  | nil => simp [Meta.addHashes, hm]
  | cons h hs ih =>
    unfold Meta.addHashes Meta.addHash
    by_cases h0 : h = m.allZeroHash
    · rw [if_pos h0]
      dsimp only
      have := ih m hm
      simpa [List.filter_cons, h0] using this
    · rw [if_neg h0]
      by_cases h1 : m.ampHashes.contains h = true
      · rw [if_pos h1]
        dsimp only
        refine ⟨⟨fun hc => by simp at hc, fun hc => ?_⟩, fun hc => by simp at hc⟩
        rw [List.filter_cons_of_pos (by simpa using h0)] at hc
        exact absurd rfl ((List.nodup_append.1 hc).2.2 h (by simpa using h1) h (by simp))
      · rw [if_neg h1]
        dsimp only
        have h1' : h ∉ m.ampHashes := by simpa using h1
        have := ih { m with ampHashes := m.ampHashes ++ [h] } (by
          simp only [List.nodup_append, hm, List.nodup_singleton, List.mem_singleton, true_and]
          rintro a ha b rfl rfl
          exact h1' ha)
        rw [List.filter_cons_of_pos (by simpa using h0)]
        simpa using this

theorem addEvts_spec (es : List EventMeta) (m : Meta) (hm : m.evtMetas.Pairwise fun a b => ¬ SameEvents a b) :
    ((m.addEvts es).1 = true ↔ (m.evtMetas ++ es).Pairwise fun a b => ¬ SameEvents a b) ∧
    ((m.addEvts es).1 = true → (m.addEvts es).2 = { m with evtMetas := m.evtMetas ++ es }) := by
  induction es generalizing m with
  | nil => simp [Meta.addEvts, hm]
  | cons e es ih =>
    unfold Meta.addEvts Meta.addEvt
    by_cases h1 : m.evtMetas.any (fun x => sameEvt x e) = true
    · rw [if_pos h1]
      dsimp only
      refine ⟨⟨fun hc => by simp at hc, fun hc => ?_⟩, fun hc => by simp at hc⟩
      rw [List.any_eq_true] at h1
      obtain ⟨x, hx, hs⟩ := h1
      exact absurd ((sameEvt_iff x e).1 hs) ((List.pairwise_append.1 hc).2.2 x hx e (by simp))
    · rw [if_neg h1]
      dsimp only
      have h1' : ∀ x ∈ m.evtMetas, ¬ SameEvents x e := by
        intro x hx hc
        exact h1 (List.any_eq_true.2 ⟨x, hx, (sameEvt_iff x e).2 hc⟩)
      have := ih { m with evtMetas := m.evtMetas ++ [e] } (by
        rw [List.pairwise_append]
        refine ⟨hm, by simp, fun a ha b hb => ?_⟩
        rw [List.mem_singleton] at hb; subst hb
        exact h1' a ha)
      simpa using this

theorem addEvt_spec (e : EventMeta) (m : Meta) (hm : m.evtMetas.Pairwise fun a b => ¬ SameEvents a b) :
    ((m.addEvt e).1 = true ↔ (m.evtMetas ++ [e]).Pairwise fun a b => ¬ SameEvents a b) ∧
    ((m.addEvt e).1 = true → (m.addEvt e).2 = { m with evtMetas := m.evtMetas ++ [e] }) := by
  have h := addEvts_spec [e] m hm
  have e1 : m.addEvts [e] = m.addEvt e := by
    unfold Meta.addEvts
    split
    · next h => rw [h]
    · next h => rw [h]; rfl
  rwa [e1] at h

theorem unionBins_spec (old b : BinMap) :
    ((unionBins old b).isSome = true ↔ b.map (·.1) ⊆ old.map (·.1)) ∧
    ∀ l, unionBins old b = some l → l.map (·.1) = b.map (·.1) ∧
      ∀ v y, (v, y) ∈ b → ∃ o, old.lookup v = some o ∧ (v, (min y.1 o.1, max y.2 o.2)) ∈ l := by
  induction b with
  | nil => simp [unionBins]
  | cons p b ih =>
    obtain ⟨v, r⟩ := p
    unfold unionBins
    cases ho : old.lookup v with
    | none =>
      dsimp only
      rw [List.lookup_eq_none_iff] at ho
      refine ⟨⟨fun h => by simp at h, fun h => ?_⟩, fun l h => by simp at h⟩
      have : v ∈ old.map (·.1) := h (by simp)
      obtain ⟨q, hq, e⟩ := List.mem_map.1 this
      have h2 := ho q hq
      simp [e] at h2
    | some o =>
      dsimp only
      have hv : v ∈ old.map (·.1) := by
        obtain ⟨l1, l2, e, _⟩ := List.lookup_eq_some_iff.1 ho
        rw [e]; simp
      refine ⟨?_, ?_⟩
      · rw [Option.isSome_map, ih.1]
        simp only [List.map_cons, List.cons_subset]
        exact ⟨fun h => ⟨hv, h⟩, fun h => h.2⟩
      · intro l hl
        rw [Option.map_eq_some_iff] at hl
        obtain ⟨l0, h0, rfl⟩ := hl
        obtain ⟨i1, i2⟩ := ih.2 l0 h0
        refine ⟨by simp [i1], fun v' y hm => ?_⟩
        rcases List.mem_cons.1 hm with he | hm
        · cases he
          exact ⟨o, ho, by simp⟩
        · obtain ⟨o', ho', hm'⟩ := i2 v' y hm
          exact ⟨o', ho', List.mem_cons_of_mem _ hm'⟩

theorem lookup_of_mem {b : BinMap} (hn : (b.map (·.1)).Nodup) {v : String} {x : ℝ × ℝ} (h : (v, x) ∈ b) : b.lookup v = some x := by
  induction b with
  | nil => simp at h
  | cons p b ih =>
    obtain ⟨u, y⟩ := p
    simp only [List.map_cons, List.nodup_cons] at hn
    rcases List.mem_cons.1 h with he | hb
    · cases he; simp
    · have : v ≠ u := by
        rintro rfl
        exact hn.1 (List.mem_map_of_mem (f := Prod.fst) hb)
      rw [List.lookup_cons, show (v == u) = false by simpa using this]
      exact ih hn.2 hb

theorem mergeBins_spec (m : Meta) (b : BinMap) (hm : (m.bins.map (·.1)).Nodup) (hb : (b.map (·.1)).Nodup) :
    ((m.mergeBins b).1 = true ↔ (b.map (·.1)).Perm (m.bins.map (·.1))) ∧
    ((m.mergeBins b).1 = true → ∃ l, (m.mergeBins b).2 = { m with bins := l } ∧ Hull m.bins b l) ∧
    ((m.mergeBins b).1 = false → (m.mergeBins b).2 = m) := by
  unfold Meta.mergeBins
  by_cases hl : b.length ≠ m.bins.length
  · rw [if_pos hl]
    refine ⟨⟨fun h => by simp at h, fun h => ?_⟩, fun h => by simp at h, fun _ => rfl⟩
    have := h.length_eq
    simp at this
    exact absurd this hl
  rw [if_neg hl]
  have hl' : b.length = m.bins.length := not_not.1 hl
  obtain ⟨u1, u2⟩ := unionBins_spec m.bins b
  have perm : b.map (·.1) ⊆ m.bins.map (·.1) ↔ (b.map (·.1)).Perm (m.bins.map (·.1)) := by
    constructor
    · intro h
      exact (hb.subperm h).perm_of_length_le (by simp [hl'])
    · exact fun h => h.subset
  cases hu : unionBins m.bins b with
  | none =>
    dsimp only
    rw [hu] at u1
    simp only [Option.isSome_none, Bool.false_eq_true, false_iff] at u1
    exact ⟨⟨fun h => by simp at h, fun h => absurd (perm.2 h) u1⟩, fun h => by simp at h, fun _ => rfl⟩
  | some l =>
    dsimp only
    have hp := perm.1 (u1.1 (by rw [hu]; rfl))
    obtain ⟨k1, k2⟩ := u2 l hu
    refine ⟨⟨fun _ => hp, fun _ => rfl⟩, fun _ => ⟨l, rfl, by rw [k1]; exact hp, ?_⟩, fun h => by simp at h⟩
    intro v x y hx hy
    obtain ⟨o, ho, hmem⟩ := k2 v y hy
    rw [lookup_of_mem hm hx] at ho
    cases ho
    exact hmem

/-! ### hashes of matrices -/

variable (md5 : List UInt8 → String) (bytes : ℂ → List UInt8)

theorem forRange_append (n : ℕ) (g : ℕ → List UInt8) (f : ℕ → List UInt8 → Outcome (List UInt8)) (s : List UInt8)
    (h : ∀ i < n, ∀ l, f i l = .ok (l ++ g i)) : forRange n s f = .ok (s ++ (List.range n).flatMap g) := by
  induction n with
  | zero => simp [forRange]
  | succ n ih =>
    simp only [forRange]
    rw [ih fun i hi => h i (by omega)]
    simp only [Outcome.ok_bind]
    rw [h n (by omega), List.range_succ, List.flatMap_append, List.append_assoc]
    simp

theorem recalculateHash_ok (m : Meta) (M : IntMat) (hM : m.matrix = some M) (hw : M.WF) :
    m.recalculateHash md5 bytes = .ok (elementHash md5 bytes M) := by
  unfold Meta.recalculateHash
  rw [hM]
  dsimp only
  rw [forRange_append M.nmbWaves (fun i => (List.range M.names.length).flatMap fun j => bytes (M.mat i j / (M.nmbEvents : ℂ)))]
  · rw [hw.waves]; rfl
  · intro i hi l
    rw [hw.waves] at hi ⊢
    rw [forRange_append M.names.length (fun j => bytes (M.mat i j / (M.nmbEvents : ℂ)))]
    intro j hj l
    rw [element_ok M hw i j hi hj]
    rfl

theorem setHash_ok (hmd : ∀ l, md5 l ≠ "") (m : Meta) (M : IntMat) (hM : m.matrix = some M) (hw : M.WF) :
    m.setHash md5 bytes = .ok (true, { m with contentHash := elementHash md5 bytes M }) := by
  unfold Meta.setHash
  rw [recalculateHash_ok md5 bytes m M hM hw, hM]
  simp only [Outcome.ok_bind]
  rw [if_neg (by exact hmd _)]

theorem check_iff (keyWaves : String → List (Option String)) (m : Meta) (M : IntMat) (hM : m.matrix = some M) (hw : M.WF) :
    m.check keyWaves = true ↔ (∀ c ∈ m.keyFiles, ∀ o ∈ keyWaves c, ∃ n, o = some n ∧ n ∈ M.names) ∧
      (m.keyFiles.flatMap keyWaves).length = M.names.length := by
  unfold Meta.check
  rw [hM]
  dsimp only
  simp only [Bool.and_eq_true, List.all_eq_true, decide_eq_true_eq, IntMat.containsWave, hw.waves]
  have len : (∀ x ∈ m.keyFiles.flatMap keyWaves, x.isSome = true) →
      ((m.keyFiles.flatMap keyWaves).filterMap id).length = (m.keyFiles.flatMap keyWaves).length := by
    intro h
    generalize m.keyFiles.flatMap keyWaves = l at h
    induction l with
    | nil => rfl
    | cons x l ih =>
      have hx := h x (by simp)
      cases x with
      | none => simp at hx
      | some n => simpa using fun y hy => h y (List.mem_cons_of_mem _ hy)
  constructor
  · rintro ⟨⟨h1, h2⟩, h3⟩
    refine ⟨fun c hc o ho => ?_, by rw [← len h1]; exact h3.symm⟩
    have hmem : o ∈ m.keyFiles.flatMap keyWaves := List.mem_flatMap.2 ⟨c, hc, ho⟩
    obtain ⟨n, rfl⟩ := Option.isSome_iff_exists.1 (h1 o hmem)
    refine ⟨n, rfl, ?_⟩
    simpa using h2 n (List.mem_filterMap.2 ⟨some n, hmem, rfl⟩)
  · rintro ⟨h1, h2⟩
    have hs : ∀ x ∈ m.keyFiles.flatMap keyWaves, x.isSome = true := by
      intro x hx
      obtain ⟨c, hc, ho⟩ := List.mem_flatMap.1 hx
      obtain ⟨n, rfl, _⟩ := h1 c hc x ho
      rfl
    refine ⟨⟨hs, fun n hn => ?_⟩, by rw [len hs]; exact h2.symm⟩
    obtain ⟨o, ho, e⟩ := List.mem_filterMap.1 hn
    obtain ⟨c, hc, ho⟩ := List.mem_flatMap.1 ho
    obtain ⟨n', rfl, hm⟩ := h1 c hc o ho
    simp only [id, Option.some.injEq] at e
    subst e
    simpa using hm

end Rpwa.IntMeta

import Verif.Spec.LikSetup
import Verif.Lemmas.PwaFit
/-! # C63: setting up a likelihood -/
namespace Rpwa.Lik

open Rpwa.Integral

theorem mem_wavePairs (nW : ℕ → ℕ) (i j : WaveIx) : (i, j) ∈ wavePairs nW ↔ i.1 = j.1 ∧ (i.1 < 2 ∧ i.2 < nW i.1) ∧ j.1 < 2 ∧ j.2 < nW j.1 := by
  obtain ⟨e, w⟩ := i
  obtain ⟨e', w'⟩ := j
  unfold wavePairs
  simp only [List.mem_flatMap, List.mem_map, List.mem_range, Prod.mk.injEq]
  constructor
  · rintro ⟨a, h1, b, h2, c, h3, ⟨rfl, rfl⟩, rfl, rfl⟩; exact ⟨rfl, ⟨h1, h2⟩, h1, h3⟩
  · rintro ⟨rfl, ⟨h1, h2⟩, _, h3⟩; exact ⟨e, h1, w, h2, w', h3, ⟨rfl, rfl⟩, rfl, rfl⟩

theorem elementByName_ok (m : IntMat) (a b : String) (z : ℂ) (h : m.elementByName a b = .ok z) :
    a ∈ m.names ∧ b ∈ m.names ∧ z = m.entry a b / (m.nmbEvents : ℂ) := by
  unfold IntMat.elementByName at h
  obtain ⟨i, h1, h⟩ := Outcome.bind_eq_ok.1 h
  obtain ⟨j, h2, h⟩ := Outcome.bind_eq_ok.1 h
  unfold IntMat.waveIndex at h1 h2
  simp only at h1 h2
  split_ifs at h1 with k1
  split_ifs at h2 with k2
  cases h1; cases h2
  refine ⟨List.idxOf_lt_length_iff.1 (not_le.1 k1), List.idxOf_lt_length_iff.1 (not_le.1 k2), ?_⟩
  unfold IntMat.element at h
  split_ifs at h
  obtain ⟨z', h3, h⟩ := Outcome.bind_eq_ok.1 h
  unfold IntMat.get at h3
  split_ifs at h3
  cases h3; cases h
  rfl

theorem elementByName_returns (m : IntMat) (hm : m.WF) (a b : String) (ha : a ∈ m.names) (hb : b ∈ m.names) :
    m.elementByName a b = .ok (m.entry a b / (m.nmbEvents : ℂ)) := by
  have h1 := List.idxOf_lt_length_iff.2 ha
  have h2 := List.idxOf_lt_length_iff.2 hb
  unfold IntMat.elementByName IntMat.waveIndex
  simp only
  rw [if_neg (by omega), if_neg (by omega)]
  simp only [Outcome.ok_bind]
  unfold IntMat.element
  rw [if_neg (by rw [hm.waves]; omega), if_neg (by rw [hm.waves]; omega)]
  unfold IntMat.get
  rw [if_pos ⟨by rw [hm.rows]; exact h1, by rw [hm.cols]; exact h2⟩]
  rfl

theorem reorder_ok (nW : ℕ → ℕ) (name : WaveIx → String) (m : IntMat) (M M' : WaveIx → WaveIx → ℂ)
    (h : reorderIntegralMatrix nW name m M = .ok M') :
    (∀ i j, (i, j) ∈ wavePairs nW → name i ∈ m.names ∧ name j ∈ m.names) ∧
    ∀ i j, M' i j = if (i, j) ∈ wavePairs nW then m.entry (name i) (name j) / (m.nmbEvents : ℂ) else M i j := by
  unfold reorderIntegralMatrix at h
  generalize wavePairs nW = l at h
  induction l generalizing M with
  | nil => cases h; simp
  | cons p l ih =>
    rw [List.foldlM_cons] at h
    obtain ⟨M1, h1, h⟩ := Outcome.bind_eq_ok.1 h
    obtain ⟨z, h2, h3⟩ := Outcome.bind_eq_ok.1 h1
    cases h3
    obtain ⟨e1, e2, e3⟩ := elementByName_ok m _ _ z h2
    obtain ⟨i1, i2⟩ := ih _ h
    constructor
    · intro i j hij
      rcases List.mem_cons.1 hij with hp | hp
      · subst hp; exact ⟨e1, e2⟩
      · exact i1 i j hp
    · intro i j
      rw [i2]
      by_cases hl : (i, j) ∈ l
      · rw [if_pos hl, if_pos (List.mem_cons_of_mem _ hl)]
      · rw [if_neg hl]
        unfold setIx
        by_cases hp : (i, j) = p
        · subst hp
          rw [if_pos (by simp), if_pos (by simp), e3]
        · rw [if_neg, if_neg]
          · simp only [List.mem_cons, not_or]; exact ⟨hp, hl⟩
          · rintro ⟨rfl, rfl⟩; exact hp rfl

theorem reorder_returns (nW : ℕ → ℕ) (name : WaveIx → String) (m : IntMat) (hm : m.WF) (M : WaveIx → WaveIx → ℂ)
    (h : ∀ i j, (i, j) ∈ wavePairs nW → name i ∈ m.names ∧ name j ∈ m.names) : ∃ M', reorderIntegralMatrix nW name m M = .ok M' := by
  unfold reorderIntegralMatrix
  generalize wavePairs nW = l at h
  induction l generalizing M with
  | nil => exact ⟨M, rfl⟩
  | cons p l ih =>
    rw [List.foldlM_cons]
    obtain ⟨h1, h2⟩ := h p.1 p.2 (by simp)
    rw [elementByName_returns m hm _ _ h1 h2]
    simp only [Outcome.ok_bind]
    exact ih _ fun i j hij => h i j (List.mem_cons_of_mem _ hij)

/-! ### wave names -/

theorem lookup_insertParam (m : List (String × WaveIx)) (n : String) (i : WaveIx) (k : String) :
    (insertParam m n i).lookup k = (m.lookup k).or (if k = n then some i else none) := by
  unfold insertParam
  split_ifs with h1 h2 h2
  · subst h2
    obtain ⟨x, hx⟩ := Option.isSome_iff_exists.1 h1
    rw [hx]; rfl
  · simp
  · subst h2
    rw [List.lookup_append]
    simp
  · rw [List.lookup_append]
    have : (k == n) = false := by simpa using h2
    simp [List.lookup_cons, this]

theorem lookup_params (name : WaveIx → String) (l : List WaveIx) (m : List (String × WaveIx)) (k : String) :
    (l.foldl (fun m i => insertParam m (name i) i) m).lookup k = (m.lookup k).or (l.find? fun i => name i == k) := by
  induction l generalizing m with
  | nil => simp
  | cons i l ih =>
    rw [List.foldl_cons, ih, lookup_insertParam, Option.or_assoc]
    congr 1
    rw [List.find?_cons]
    by_cases h : k = name i
    · subst h; simp
    · have h' : (name i == k) = false := by simpa using fun h2 => h h2.symm
      rw [if_neg h, h']; simp

/-! ### the loop over the events -/

open Classical in
/-- scaling of an amplitude. -/
noncomputable def scaleAmp (useNorm : Bool) (normInt a : ℂ) : ℂ := if useNorm ∧ normInt ≠ 0 then a / ((Real.sqrt normInt.re : ℝ) : ℂ) else a

theorem loadLoop_spec (u : Bool) (c : ℂ) (as : List ℂ) (ev : ℕ) (st : (ℕ → ℂ) × Bool) :
    ((loadLoop u c as ev st).1 = true ↔ ¬ (u = true ∧ c = 0 ∧ ∃ a ∈ as, a ≠ 0)) ∧
    ((loadLoop u c as ev st).1 = true →
      (∀ k, (loadLoop u c as ev st).2.1 k = if ev ≤ k ∧ k < ev + as.length then scaleAmp u c (as.getD (k - ev) 0) else st.1 k) ∧
      ((loadLoop u c as ev st).2.2 = true ↔ st.2 = true ∧ ∀ a ∈ as, scaleAmp u c a = 0)) := by
  induction as generalizing ev st with
  | nil =>
    refine ⟨by simp [loadLoop], fun _ => ⟨?_, by simp [loadLoop]⟩⟩
    intro k
    rw [if_neg (by simp)]
    rfl
  | cons a as ih =>
    by_cases h : u = true ∧ c = 0 ∧ a ≠ 0
    · have hc : loadLoop u c (a :: as) ev st = (false, st) := by rw [loadLoop, if_pos h]
      rw [hc]
      refine ⟨?_, fun h => by cases h⟩
      simp only [Bool.false_eq_true, false_iff, not_not]
      exact ⟨h.1, h.2.1, a, by simp, h.2.2⟩
    · have hc : loadLoop u c (a :: as) ev st =
          loadLoop u c as (ev + 1) (Function.update st.1 ev (scaleAmp u c a), if scaleAmp u c a ≠ 0 then false else st.2) := by
        rw [loadLoop, if_neg h]; rfl
      rw [hc]
      obtain ⟨i1, i2⟩ := ih (ev + 1) (Function.update st.1 ev (scaleAmp u c a), if scaleAmp u c a ≠ 0 then false else st.2)
      refine ⟨?_, ?_⟩
      · rw [i1]
        apply not_congr
        constructor
        · rintro ⟨h1, h2, b, hb, hb0⟩; exact ⟨h1, h2, b, by simp [hb], hb0⟩
        · rintro ⟨h1, h2, b, hb, hb0⟩
          rcases List.mem_cons.1 hb with hb | hb
          · subst hb; exact absurd ⟨h1, h2, hb0⟩ h
          · exact ⟨h1, h2, b, hb, hb0⟩
      · intro hr
        obtain ⟨j1, j2⟩ := i2 hr
        refine ⟨?_, ?_⟩
        · intro k
          refine (j1 k).trans ?_
          simp only [List.length_cons]
          by_cases hk : k = ev
          · subst hk
            rw [if_neg (by omega), if_pos (by omega)]
            simp
          · by_cases hk2 : ev + 1 ≤ k ∧ k < ev + 1 + as.length
            · rw [if_pos hk2, if_pos (by omega)]
              obtain ⟨j, rfl⟩ : ∃ j, k = ev + 1 + j := ⟨k - (ev + 1), by omega⟩
              have e1 : ev + 1 + j - (ev + 1) = j := by omega
              have e2 : ev + 1 + j - ev = j + 1 := by omega
              rw [e1, e2]
              simp
            · rw [if_neg hk2, if_neg (by omega), Function.update_of_ne hk]
        · refine j2.trans ?_
          simp only [List.mem_cons, forall_eq_or_imp]
          by_cases h0 : scaleAmp u c a = 0
          · simp [h0]
          · simp [h0]

theorem scaleAmp_zero (u : Bool) (c : ℂ) (hc : 0 ≤ c.re ∧ c.im = 0) (a : ℂ) : scaleAmp u c a = 0 ↔ a = 0 := by
  unfold scaleAmp
  split_ifs with h
  · have hre : 0 < c.re := by
      rcases hc.1.lt_or_eq with h1 | h1
      · exact h1
      · exact absurd (Complex.ext h1.symm hc.2) h.2
    have : ((Real.sqrt c.re : ℝ) : ℂ) ≠ 0 := by
      rw [Ne, Complex.ofReal_eq_zero]
      exact (Real.sqrt_pos.2 hre).ne'
    rw [div_eq_zero_iff]
    simp [this]
  · rfl

/-! ### the protocol -/

theorem succeeds_append (s u : LikObj) (a b : List SetupCall) : Succeeds s (a ++ b) u ↔ ∃ t, Succeeds s a t ∧ Succeeds t b u := by
  induction a generalizing s with
  | nil =>
    constructor
    · intro h; exact ⟨s, .nil s, h⟩
    · rintro ⟨t, h1, h2⟩; cases h1; exact h2
  | cons c cs ih =>
    constructor
    · intro h
      cases h with
      | cons h1 h2 =>
        obtain ⟨t, h3, h4⟩ := (ih _).1 h2
        exact ⟨t, .cons h1 h3, h4⟩
    · rintro ⟨t, h1, h2⟩
      cases h1 with
      | cons h3 h4 => exact .cons h3 ((ih _).2 ⟨t, h4, h2⟩)

theorem succeeds_one (s u : LikObj) (c : SetupCall) : Succeeds s [c] u ↔ s.step c = .ok (true, u) := by
  constructor
  · intro h
    cases h with
    | cons h1 h2 => cases h2; exact h1
  · intro h; exact .cons h (.nil u)

namespace SetupInput
variable (inp : SetupInput)

/-- index of a wave name. -/
noncomputable def index (w : String) : Option WaveIx := (waveIxs inp.waves.nW).find? fun i => inp.waveName i == w

/-- the object before amplitudes are added. -/
noncomputable def base (d : ParData) : LikObj :=
  { LikObj.new with
    nW := inp.waves.nW, name := inp.waveName,
    waveParams := (waveIxs inp.waves.nW).foldl (fun m i => insertParam m (inp.waveName i) i) [],
    rank := inp.rank, pars := d, initialized := true, normIntAdded := true, accIntAdded := true, numbAccEvents := inp.genEvents,
    totAcc := inp.totAcc, ints := inp.ints, useNorm := inp.useNorm, prior := inp.prior, cauchyWidth := inp.cauchyWidth }

/-- conditions for the first calls. -/
structure First (d : ParData) : Prop where
  hrefl : ∀ w ∈ inp.ws, w.2.1 = 1 ∨ w.2.1 = -1
  hbuilt : buildParDataStruct inp.waves inp.rank inp.mass = .ok (some d)
  hnorm : ∀ i, inp.IsWave i → inp.waveName i ∈ inp.norm.names
  hacc : ∀ i, inp.IsWave i → inp.waveName i ∈ inp.acc.names

theorem index_some (w : String) (i : WaveIx) (h : inp.index w = some i) : inp.IsWave i ∧ inp.waveName i = w := by
  unfold index at h
  have h1 := List.mem_of_find?_eq_some h
  have h2 := List.find?_some h
  exact ⟨(mem_waveIxs _ _).1 h1, by simpa using h2⟩

theorem base_lookup (d : ParData) (w : String) : (inp.base d).waveParams.lookup w = inp.index w := by
  show ((waveIxs inp.waves.nW).foldl (fun m i => insertParam m (inp.waveName i) i) []).lookup w = _
  rw [lookup_params]
  rfl

/-- the first calls of the protocol. -/
def firstCalls : List SetupCall :=
  [.useNormalizedAmps inp.useNorm, .setPriorType inp.prior, .setCauchyWidth inp.cauchyWidth, .init inp.ws inp.rank inp.mass,
    .addNormIntegral inp.norm, .addAccIntegral inp.acc inp.accEventsOverride]

theorem map_eq_ok {α β : Type} {x : Outcome α} {f : α → β} {y : β} (h : x.map f = .ok y) : ∃ a, x = .ok a ∧ f a = y := by
  cases x with
  | ok a => exact ⟨a, rfl, Outcome.ok.inj h⟩
  | terminate => cases h
  | ub => cases h

theorem first_spec (s : LikObj) (h : Succeeds LikObj.new inp.firstCalls s) : ∃ d, inp.First d ∧ s = inp.base d := by
  unfold firstCalls at h
  cases h with | cons h1 h =>
  cases h with | cons h2 h =>
  cases h with | cons h3 h =>
  cases h with | cons h4 h =>
  cases h with | cons h5 h =>
  cases h with | cons h6 h =>
  cases h
  simp only [LikObj.step] at h1 h2 h3
  cases h1; cases h2; cases h3
  simp only [LikObj.step] at h4 h5 h6
  -- init
  unfold LikObj.init at h4
  by_cases hr : ∀ w ∈ inp.ws, w.2.1 = 1 ∨ w.2.1 = -1
  swap
  · rw [if_pos hr] at h4; cases h4
  rw [if_neg (not_not.2 hr), if_neg (by simp [LikObj.new])] at h4
  obtain ⟨od, hd, h4⟩ := Outcome.bind_eq_ok.1 h4
  cases od with
  | none => cases h4
  | some d =>
    cases h4
    -- addNormIntegral
    unfold LikObj.addNormIntegral at h5
    rw [if_neg (by simp)] at h5
    obtain ⟨M, hM, h5⟩ := Outcome.bind_eq_ok.1 h5
    cases h5
    -- addAccIntegral
    obtain ⟨r, h6, h7⟩ := map_eq_ok h6
    unfold LikObj.addAccIntegral at h6
    rw [if_neg (by simp)] at h6
    obtain ⟨M', hM', h6⟩ := Outcome.bind_eq_ok.1 h6
    cases h6
    cases h7
    obtain ⟨n1, n2⟩ := reorder_ok _ _ _ _ _ hM
    obtain ⟨a1, a2⟩ := reorder_ok _ _ _ _ _ hM'
    refine ⟨d, ⟨hr, hd, ?_, ?_⟩, ?_⟩
    · intro i hi
      exact (n1 i i ((mem_wavePairs _ _ _).2 ⟨rfl, hi, hi⟩)).1
    · intro i hi
      exact (a1 i i ((mem_wavePairs _ _ _).2 ⟨rfl, hi, hi⟩)).1
    · have e1 : M = inp.ints.norm := by
        funext i j
        rw [n2]
        by_cases hp : (i, j) ∈ wavePairs (readWaveList inp.ws).nW
        · exact (if_pos hp).trans (if_pos ((mem_wavePairs _ _ _).1 hp)).symm
        · exact (if_neg hp).trans (if_neg fun h => hp ((mem_wavePairs _ _ _).2 h)).symm
      have e2 : M' = inp.ints.acc := by
        funext i j
        rw [a2]
        by_cases hp : (i, j) ∈ wavePairs (readWaveList inp.ws).nW
        · exact (if_pos hp).trans (if_pos ((mem_wavePairs _ _ _).1 hp)).symm
        · exact (if_neg hp).trans (if_neg fun h => hp ((mem_wavePairs _ _ _).2 h)).symm
      rw [e1, e2]
      have e3 : (fun i => if i ∈ waveIxs (readWaveList inp.ws).nW then false else LikObj.new.ampAdded i) = LikObj.new.ampAdded := by
        funext i; split_ifs <;> rfl
      simp only [e3]
      rfl

theorem first_returns (d : ParData) (h : inp.First d) (hn : inp.norm.WF) (ha : inp.acc.WF) : Succeeds LikObj.new inp.firstCalls (inp.base d) := by
  suffices h' : ∃ s, Succeeds LikObj.new inp.firstCalls s by
    obtain ⟨s, hs⟩ := h'
    obtain ⟨d', hd', rfl⟩ := inp.first_spec s hs
    have := hd'.hbuilt
    rw [h.hbuilt] at this
    cases this
    exact hs
  have hp : ∀ (m : IntMat), (∀ i, inp.IsWave i → inp.waveName i ∈ m.names) → ∀ i j, (i, j) ∈ wavePairs inp.waves.nW →
      inp.waveName i ∈ m.names ∧ inp.waveName j ∈ m.names := by
    intro m hm i j hij
    obtain ⟨_, h1, h2⟩ := (mem_wavePairs _ _ _).1 hij
    exact ⟨hm i h1, hm j h2⟩
  obtain ⟨M, hM⟩ := reorder_returns inp.waves.nW inp.waveName inp.norm hn (fun _ _ => 0) (hp _ h.hnorm)
  obtain ⟨M', hM'⟩ := reorder_returns inp.waves.nW inp.waveName { inp.acc with nmbEvents := inp.genEvents } ⟨ha.waves, ha.rows, ha.cols⟩ (fun _ _ => 0)
    (hp _ h.hacc)
  let s4 : LikObj := { LikObj.new with
      nW := inp.waves.nW, name := inp.waveName,
      ampAdded := fun i => if i ∈ waveIxs inp.waves.nW then false else LikObj.new.ampAdded i
      waveParams := (waveIxs inp.waves.nW).foldl (fun m i => insertParam m (inp.waveName i) i) [],
      rank := inp.rank, pars := d, initialized := true, useNorm := inp.useNorm, prior := inp.prior, cauchyWidth := inp.cauchyWidth }
  let s5 : LikObj := { LikObj.new with
      nW := inp.waves.nW, name := inp.waveName,
      ampAdded := fun i => if i ∈ waveIxs inp.waves.nW then false else LikObj.new.ampAdded i
      waveParams := (waveIxs inp.waves.nW).foldl (fun m i => insertParam m (inp.waveName i) i) [],
      rank := inp.rank, pars := d, initialized := true, useNorm := inp.useNorm, prior := inp.prior, cauchyWidth := inp.cauchyWidth,
      numbAccEvents := inp.norm.nmbEvents, ints := ⟨M, fun _ _ => 0⟩, normIntAdded := true }
  let s6 : LikObj := { LikObj.new with
      nW := inp.waves.nW, name := inp.waveName,
      ampAdded := fun i => if i ∈ waveIxs inp.waves.nW then false else LikObj.new.ampAdded i
      waveParams := (waveIxs inp.waves.nW).foldl (fun m i => insertParam m (inp.waveName i) i) [],
      rank := inp.rank, pars := d, initialized := true, useNorm := inp.useNorm, prior := inp.prior, cauchyWidth := inp.cauchyWidth,
      numbAccEvents := inp.genEvents, ints := ⟨M, M'⟩, normIntAdded := true, accIntAdded := true, totAcc := inp.totAcc }
  let s1 : LikObj := { LikObj.new with useNorm := inp.useNorm }
  let s2 : LikObj := { s1 with prior := inp.prior }
  let s3 : LikObj := { s2 with cauchyWidth := inp.cauchyWidth }
  have h4 : s3.step (.init inp.ws inp.rank inp.mass) = .ok (true, s4) := by
    show LikObj.init _ _ _ _ = _
    unfold LikObj.init
    rw [if_neg (not_not.2 h.hrefl), if_neg (by simp [s3, s2, s1, LikObj.new])]
    have hb : buildParDataStruct (readWaveList inp.ws) inp.rank inp.mass = .ok (some d) := h.hbuilt
    simp only [hb, Outcome.ok_bind]
    rfl
  have h5 : s4.step (.addNormIntegral inp.norm) = .ok (true, s5) := by
    show LikObj.addNormIntegral _ _ = _
    unfold LikObj.addNormIntegral
    rw [if_neg (by simp [s4])]
    have hM2 : reorderIntegralMatrix s4.nW s4.name inp.norm s4.ints.norm = .ok M := hM
    simp only [hM2, Outcome.ok_bind]
    rfl
  have h6 : s5.step (.addAccIntegral inp.acc inp.accEventsOverride) = .ok (true, s6) := by
    show (LikObj.addAccIntegral _ _ _).map _ = _
    unfold LikObj.addAccIntegral
    rw [if_neg (by simp [s5])]
    have hM2 : reorderIntegralMatrix s5.nW s5.name { inp.acc with nmbEvents := if inp.accEventsOverride = 0 then s5.numbAccEvents
      else inp.accEventsOverride } s5.ints.acc = .ok M' := hM'
    simp only [hM2, Outcome.ok_bind]
    rfl
  exact ⟨s6, .cons (t := s1) rfl (.cons (t := s2) rfl (.cons (t := s3) rfl (.cons h4 (.cons h5 (.cons h6 (.nil _))))))⟩

open Classical in
/-- a wave of this name is empty. -/
noncomputable def emptyName (w : String) : Bool := decide (∃ i, inp.index w = some i ∧ inp.Empty i)

open Classical in
theorem emptyName_iff (w : String) : inp.emptyName w = true ↔ ∃ i, inp.index w = some i ∧ inp.Empty i := by
  unfold emptyName; exact decide_eq_true_iff

open Classical in
/-- the object after amplitudes of the waves in `order` have been added. -/
noncomputable def added (d : ParData) (order : List String) (N : ℕ) : LikObj :=
  { inp.base d with
    nmbEvents := N
    decayAmps := fun i ev => if ∃ w ∈ order, inp.index w = some i then scaleAmp inp.useNorm (inp.ints.norm i i) ((inp.amps (inp.waveName i)).getD ev 0) else 0
    pars := (order.filter inp.emptyName).foldl fixWave d
    ampAdded := fun i => decide (∃ w ∈ order, inp.index w = some i) }

/-- conditions for adding amplitudes. -/
def AddOk (w : String) (N : ℕ) : Prop :=
  0 < N ∧ (inp.amps w).length = N ∧ ∃ i, inp.index w = some i ∧ ¬ (inp.useNorm = true ∧ inp.ints.norm i i = 0 ∧ ∃ a ∈ inp.amps w, a ≠ 0)

theorem added_step (hdiag : inp.DiagOk) (d : ParData) (order : List String) (N : ℕ) (w : String) (h0 : N = 0 → order = []) (s : LikObj) :
    (inp.added d order N).step (.addAmplitude w (inp.amps w)) = .ok (true, s) ↔
      inp.AddOk w (inp.amps w).length ∧ (N ≠ 0 → (inp.amps w).length = N) ∧ s = inp.added d (order ++ [w]) (inp.amps w).length := by
  have hlk : (inp.added d order N).waveParams.lookup w = inp.index w := inp.base_lookup d w
  simp only [LikObj.step]
  unfold LikObj.addAmplitude
  have hacc : (inp.added d order N).accIntAdded = true := rfl
  rw [hacc, if_neg (by simp), hlk]
  cases hi : inp.index w with
  | none =>
    simp only [AddOk, hi]
    simp
  | some i =>
    obtain ⟨hw, hname⟩ := inp.index_some w i hi
    simp only
    by_cases hl : (inp.amps w).length = 0
    · rw [if_pos hl]
      unfold AddOk
      simp [hl]
    rw [if_neg hl]
    have hs1 : (inp.added d order N).setEvents (inp.amps w).length = inp.added d order (if N = 0 then (inp.amps w).length else N) := by
      unfold LikObj.setEvents
      by_cases hN : N = 0
      · have ho := h0 hN
        subst hN ho
        refine (if_pos rfl).trans ?_
        rw [if_pos rfl]
        unfold added
        simp
      · rw [if_neg hN, if_neg (show ¬ (inp.added d order N).nmbEvents = 0 from hN)]
    rw [hs1]
    by_cases hlen : (inp.amps w).length = (if N = 0 then (inp.amps w).length else N)
    swap
    · have hl2 : (inp.amps w).length ≠ (inp.added d order (if N = 0 then (inp.amps w).length else N)).nmbEvents := hlen
      rw [if_pos hl2]
      constructor
      · intro h; cases h
      · rintro ⟨_, h2, _⟩
        exfalso
        apply hlen
        split_ifs with h3
        · rfl
        · exact h2 h3
    have hl2 : ¬ (inp.amps w).length ≠ (inp.added d order (if N = 0 then (inp.amps w).length else N)).nmbEvents := not_not.2 hlen
    rw [if_neg hl2, ← hlen]
    obtain ⟨q1, q2⟩ := loadLoop_spec inp.useNorm (inp.ints.norm i i) (inp.amps w) 0
      ((inp.added d order (inp.amps w).length).decayAmps i, @decide (inp.ints.acc i i = 0) (Classical.propDecidable _))
    set r := loadLoop inp.useNorm (inp.ints.norm i i) (inp.amps w) 0
      ((inp.added d order (inp.amps w).length).decayAmps i, @decide (inp.ints.acc i i = 0) (Classical.propDecidable _)) with hr
    have hr' : loadLoop (inp.added d order (inp.amps w).length).useNorm ((inp.added d order (inp.amps w).length).ints.norm i i) (inp.amps w) 0
      ((inp.added d order (inp.amps w).length).decayAmps i, @decide ((inp.added d order (inp.amps w).length).ints.acc i i = 0) (Classical.propDecidable _)) = r := rfl
    simp only [hr']
    cases hr1 : r.1
    · rw [hr1] at q1
      simp only [Bool.not_false, if_true, Outcome.ok.injEq, Prod.mk.injEq, Bool.false_eq_true, false_and, false_iff, not_and]
      rintro ⟨_, _, i', hi', hno⟩
      rw [hi] at hi'; cases hi'
      exact absurd (q1.2 hno) (by simp)
    · obtain ⟨q3, q4⟩ := q2 hr1
      have hok := q1.1 hr1
      simp only [Bool.not_true, Bool.false_eq_true, if_false, Outcome.ok.injEq, Prod.mk.injEq, true_and]
      have hgoal : ({ inp.added d order (inp.amps w).length with
          decayAmps := Function.update (inp.added d order (inp.amps w).length).decayAmps i r.2.1
          pars := if r.2.2 = true then fixWave (inp.added d order (inp.amps w).length).pars w else (inp.added d order (inp.amps w).length).pars
          ampAdded := Function.update (inp.added d order (inp.amps w).length).ampAdded i true } : LikObj) =
          inp.added d (order ++ [w]) (inp.amps w).length := by
        have e1 : Function.update (inp.added d order (inp.amps w).length).decayAmps i r.2.1 = (inp.added d (order ++ [w]) (inp.amps w).length).decayAmps := by
          funext i' ev
          by_cases hii : i' = i
          · subst hii
            rw [Function.update_self, q3]
            have hx : (inp.added d (order ++ [w]) (inp.amps w).length).decayAmps i' ev =
                scaleAmp inp.useNorm (inp.ints.norm i' i') ((inp.amps (inp.waveName i')).getD ev 0) :=
              if_pos ⟨w, by simp, hi⟩
            rw [hx, hname]
            split_ifs with hev
            · simp
            · have hz : (inp.amps w).getD ev 0 = 0 := by
                rw [List.getD_eq_getElem?_getD, List.getElem?_eq_none (by omega)]; rfl
              rw [hz]
              have h0' : scaleAmp inp.useNorm (inp.ints.norm i' i') 0 = 0 := (scaleAmp_zero _ _ (hdiag i' hw) 0).2 rfl
              rw [h0']
              show (if _ then _ else _) = (0 : ℂ)
              split_ifs with hex
              · rw [hname, hz, h0']
              · rfl
          · rw [Function.update_of_ne hii]
            show (if _ then _ else _) = if _ then _ else _
            refine if_congr ?_ rfl rfl
            constructor
            · rintro ⟨w', h1, h2⟩; exact ⟨w', by simp [h1], h2⟩
            · rintro ⟨w', h1, h2⟩
              rcases List.mem_append.1 h1 with h1 | h1
              · exact ⟨w', h1, h2⟩
              · rw [List.mem_singleton.1 h1, hi] at h2
                exact absurd (Option.some.inj h2).symm hii
        have e2 : Function.update (inp.added d order (inp.amps w).length).ampAdded i true = (inp.added d (order ++ [w]) (inp.amps w).length).ampAdded := by
          funext i'
          by_cases hii : i' = i
          · subst hii
            rw [Function.update_self]
            exact (decide_eq_true ⟨w, by simp, hi⟩).symm
          · rw [Function.update_of_ne hii]
            show decide _ = decide _
            apply decide_eq_decide.2
            constructor
            · rintro ⟨w', h1, h2⟩; exact ⟨w', by simp [h1], h2⟩
            · rintro ⟨w', h1, h2⟩
              rcases List.mem_append.1 h1 with h1 | h1
              · exact ⟨w', h1, h2⟩
              · rw [List.mem_singleton.1 h1, hi] at h2
                exact absurd (Option.some.inj h2).symm hii
        have e3 : (if r.2.2 = true then fixWave (inp.added d order (inp.amps w).length).pars w else (inp.added d order (inp.amps w).length).pars) =
            (inp.added d (order ++ [w]) (inp.amps w).length).pars := by
          have hiff : r.2.2 = true ↔ ∃ i, inp.index w = some i ∧ inp.Empty i := by
            rw [q4]
            simp only [decide_eq_true_eq]
            constructor
            · rintro ⟨h1, h2⟩
              refine ⟨i, hi, h1, ?_⟩
              rw [hname]
              intro a ha
              exact (scaleAmp_zero _ _ (hdiag i hw) a).1 (h2 a ha)
            · rintro ⟨i', hi', h1, h2⟩
              rw [hi] at hi'; cases hi'
              rw [hname] at h2
              exact ⟨h1, fun a ha => (scaleAmp_zero _ _ (hdiag i hw) a).2 (h2 a ha)⟩
          show _ = List.foldl fixWave d _
          rw [List.filter_append, List.foldl_append]
          by_cases h22 : r.2.2 = true
          · rw [if_pos h22, List.filter_cons_of_pos ((inp.emptyName_iff w).2 (hiff.1 h22))]
            rfl
          · rw [if_neg h22, List.filter_cons_of_neg (fun h => h22 (hiff.2 ((inp.emptyName_iff w).1 h)))]
            rfl
        rw [e1, e2, e3]
        rfl
      constructor
      · intro h
        refine ⟨⟨by omega, rfl, i, hi, hok⟩, ?_, ?_⟩
        · intro hN; rw [if_neg hN] at hlen; exact hlen
        · rw [← h]; exact hgoal
      · rintro ⟨_, _, h⟩
        rw [h]; exact hgoal

end SetupInput

end Rpwa.Lik

import Verif.Spec.IntegralMatrix
import Mathlib.Tactic.Ring
import Mathlib.Tactic.Linarith
import Mathlib.Tactic.FieldSimp
/-! Lemmas for C19–C22. -/
namespace Rpwa.Integral

theorem forRange_traj {σ : Type} (n : ℕ) (s : ℕ → σ) (f : ℕ → σ → Outcome σ)
    (h : ∀ i < n, f i (s i) = .ok (s (i + 1))) : forRange n (s 0) f = .ok (s n) := by
  induction n with
  | zero => rfl
  | succ n ih =>
    simp only [forRange]
    rw [ih fun i hi => h i (by omega)]
    exact h n (by omega)

theorem forRange_inv {σ : Type} (P : ℕ → σ → Prop) (n : ℕ) (s r : σ) (f : ℕ → σ → Outcome σ) (h0 : P 0 s)
    (hs : ∀ i < n, ∀ a b, P i a → f i a = .ok b → P (i + 1) b) (h : forRange n s f = .ok r) : P n r := by
  induction n generalizing r with
  | zero => simp [forRange] at h; subst h; exact h0
  | succ n ih =>
    simp only [forRange] at h
    cases hq : forRange n s f with
    | ok q =>
      rw [hq] at h
      exact hs n (by omega) q r (ih q (fun i hi => hs i (by omega)) hq) h
    | terminate => rw [hq] at h; simp at h
    | ub => rw [hq] at h; simp at h

theorem allOutcome_ok (n : ℕ) (t : ℕ → Outcome Bool) (b : ℕ → Bool) (h : ∀ i < n, t i = .ok (b i)) :
    allOutcome t n = .ok ((List.range n).all b) := by
  induction n with
  | zero => rfl
  | succ n ih =>
    simp only [allOutcome]
    rw [ih fun i hi => h i (by omega)]
    simp only [Outcome.ok_bind, List.range_succ, List.all_append, List.all_cons, List.all_nil, Bool.and_true]
    cases hb : (List.range n).all b
    · simp
    · simp [h n (by omega)]

/-- the updates of a double loop that visits every entry of an `n × n` matrix once. -/
theorem loop2 (n : ℕ) (m : IntMat) (outer : ℕ → IntMat → Outcome IntMat) (body : ℕ → ℕ → IntMat → Outcome IntMat)
    (g : ℕ → ℕ → ℂ)
    (hout : ∀ i < n, ∀ M, outer i { m with mat := M } = forRange n { m with mat := M } (body i))
    (h : ∀ i < n, ∀ j < n, ∀ M : ℕ → ℕ → ℂ, M i j = m.mat i j →
      body i j { m with mat := M } = .ok { m with mat := fun a b => if a = i ∧ b = j then g i j else M a b }) :
    forRange n m outer = .ok { m with mat := fun a b => if a < n ∧ b < n then g a b else m.mat a b } := by
  have := forRange_traj n (fun i => ({ m with mat := fun a b => if a < i ∧ b < n then g a b else m.mat a b } : IntMat)) outer
    (fun i hi => by
      rw [hout i hi]
      have h2 := forRange_traj n
        (fun j => ({ m with mat := fun a b => if (a < i ∧ b < n) ∨ (a = i ∧ b < j) then g a b else m.mat a b } : IntMat))
        (body i) (fun j hj => by
          rw [h i hi j hj _ (by simp)]
          congr 2
          funext a b
          by_cases ha : a = i
          · subst ha
            by_cases hb : b = j
            · subst hb; simp
            · have : (b < j + 1) ↔ b < j := by omega
              simp [hb, this]
          · simp [ha])
      simp only [Nat.not_lt_zero, and_false, or_false] at h2
      rw [h2]
      congr 2
      funext a b
      by_cases ha : a = i
      · subst ha; simp
      · have : (a < i + 1) ↔ a < i := by omega
        simp [ha, this])
  simp only [Nat.not_lt_zero, false_and, if_false] at this
  exact this

theorem waveName_ok (m : IntMat) (i : ℕ) (h : i < m.names.length) : m.waveName i = .ok m.names[i] := by
  unfold IntMat.waveName; rw [List.getElem?_eq_getElem h]

theorem waveIndex_ok (m : IntMat) (n : String) (h : n ∈ m.names) : m.waveIndex n = .ok (m.names.idxOf n) := by
  unfold IntMat.waveIndex
  have := List.idxOf_lt_length_of_mem h
  simp only [ge_iff_le]
  rw [if_neg (by omega)]

theorem waveIndex_bad (m : IntMat) (n : String) (h : n ∉ m.names) : m.waveIndex n = .terminate := by
  unfold IntMat.waveIndex
  have := List.idxOf_eq_length_iff.2 h
  simp [this]

theorem hasIdentical_ok (m o : IntMat) (hm : m.WF) (ho : o.WF) :
    m.hasIdenticalWaveSet o = .ok (decide (m.names.length = o.names.length ∧ m.names ⊆ o.names ∧ o.names ⊆ m.names)) := by
  unfold IntMat.hasIdenticalWaveSet
  rw [hm.waves, ho.waves]
  by_cases hl : m.names.length = o.names.length
  · rw [if_neg (by simpa using hl)]
    rw [allOutcome_ok _ _ (fun i => o.names.contains (m.names.getD i "")) (fun i hi => by
      rw [waveName_ok m i hi]; simp [IntMat.containsWave, hi])]
    rw [allOutcome_ok _ _ (fun i => m.names.contains (o.names.getD i "")) (fun i hi => by
      rw [waveName_ok o i hi]; simp [IntMat.containsWave, hi])]
    have key : ∀ l k : List String, ((List.range l.length).all fun i => k.contains (l.getD i "")) = decide (l ⊆ k) := by
      intro l k
      rw [Bool.eq_iff_iff, List.all_eq_true, decide_eq_true_iff]
      constructor
      · intro h x hx
        obtain ⟨i, hi, rfl⟩ := List.mem_iff_getElem.1 hx
        have := h i (List.mem_range.2 hi)
        simpa [hi] using this
      · intro h i hi
        have hi := List.mem_range.1 hi
        have := h (List.getElem_mem hi)
        simpa [hi] using this
    rw [key, key]
    by_cases h1 : m.names ⊆ o.names <;> simp [h1, hl]
  · rw [if_pos (by simpa using hl)]
    simp [hl]

theorem combineLoop_ok (op : ℂ → ℂ → ℂ) (m o : IntMat) (hm : m.WF) (ho : o.WF) (hsub : m.names ⊆ o.names) :
    combineLoop op m o = .ok { m with mat := (fun i j => if i < m.names.length ∧ j < m.names.length then
      op (m.mat i j) (o.entry (m.names.getD i "") (m.names.getD j "")) else m.mat i j) } := by
  unfold combineLoop
  rw [← hm.waves]
  refine loop2 m.nmbWaves m _ (fun i j s => do
      let oi ← o.waveIndex (m.names.getD i "")
      let nj ← s.waveName j
      let oj ← o.waveIndex nj
      let z ← o.get oi oj
      let w ← s.get i j
      s.set i j (op w z)) _ (fun i hi M => ?_) (fun i hi j hj M hM => ?_)
  · rw [hm.waves] at hi
    rw [waveName_ok { m with mat := M } i hi]; simp [hi]
  · rw [hm.waves] at hi hj
    have hi' : m.names.getD i "" ∈ o.names := by
      have := hsub (List.getElem_mem hi); simpa [hi] using this
    have hj' : m.names.getD j "" ∈ o.names := by
      have := hsub (List.getElem_mem hj); simpa [hj] using this
    rw [waveIndex_ok o _ hi', waveName_ok { m with mat := M } j hj]
    have e : m.names[j] = m.names.getD j "" := by simp [hj]
    simp only [Outcome.ok_bind, e]
    rw [waveIndex_ok o _ hj']
    have a1 := List.idxOf_lt_length_of_mem hi'
    have a2 := List.idxOf_lt_length_of_mem hj'
    simp only [Outcome.ok_bind, IntMat.get, IntMat.set, ho.rows, ho.cols, hm.rows, hm.cols, a1, a2, hi, hj, and_self, if_true,
      IntMat.entry, hM]

theorem mapLoop_ok (f : ℂ → ℂ) (m : IntMat) (hm : m.WF) :
    mapLoop f m = .ok { m with mat := fun i j => if i < m.names.length ∧ j < m.names.length then f (m.mat i j) else m.mat i j } := by
  unfold mapLoop
  rw [← hm.waves]
  refine loop2 m.nmbWaves m _ (fun i j s => do
      let w ← s.get i j
      s.set i j (f w)) _ (fun i hi M => ?_) (fun i hi j hj M hM => ?_)
  · rfl
  rw [hm.waves] at hi hj
  simp [IntMat.get, IntMat.set, hm.rows, hm.cols, hi, hj, hM]

theorem getD_idxOf {l : List String} {a : String} (h : a ∈ l) : l.getD (l.idxOf a) "" = a := by
  have := List.idxOf_lt_length_of_mem h
  simp [this]

theorem element_ok (m : IntMat) (hm : m.WF) (i j : ℕ) (hi : i < m.names.length) (hj : j < m.names.length) :
    m.element i j = .ok (m.mat i j / (m.nmbEvents : ℂ)) := by
  unfold IntMat.element
  rw [hm.waves, if_neg (by omega), if_neg (by omega)]
  simp [IntMat.get, hm.rows, hm.cols, hi, hj]

theorem elementByName_ok (m : IntMat) (hm : m.WF) (a b : String) (ha : a ∈ m.names) (hb : b ∈ m.names) :
    m.elementByName a b = .ok (m.entry a b / (m.nmbEvents : ℂ)) := by
  unfold IntMat.elementByName
  rw [waveIndex_ok m a ha, waveIndex_ok m b hb]
  simp only [Outcome.ok_bind]
  rw [element_ok m hm _ _ (List.idxOf_lt_length_of_mem ha) (List.idxOf_lt_length_of_mem hb)]
  rfl

theorem addEvent_ok (m : IntMat) (hm : m.WF) (amps : String → Option ℂ) :
    m.addEvent amps = if m.names.all (fun n => (amps n).isSome) then
      .ok (true, { m with
        nmbEvents := m.nmbEvents + 1
        mat := (fun i j => if i < m.names.length ∧ j < m.names.length then
          m.mat i j + (amps (m.names.getD i "")).getD 0 * (starRingEnd ℂ) ((amps (m.names.getD j "")).getD 0) else m.mat i j) })
      else .ok (false, m) := by
  unfold IntMat.addEvent
  rw [allOutcome_ok _ _ (fun i => (amps (m.names.getD i "")).isSome) (fun i hi => by
      rw [hm.waves] at hi
      rw [waveName_ok m i hi]; simp [hi])]
  have key : ((List.range m.nmbWaves).all fun i => (amps (m.names.getD i "")).isSome) = m.names.all (fun n => (amps n).isSome) := by
    rw [hm.waves, Bool.eq_iff_iff, List.all_eq_true, List.all_eq_true]
    constructor
    · intro h x hx
      obtain ⟨i, hi, rfl⟩ := List.mem_iff_getElem.1 hx
      have := h i (List.mem_range.2 hi)
      simpa [hi] using this
    · intro h i hi
      have hi := List.mem_range.1 hi
      have := h _ (List.getElem_mem hi)
      simpa [hi] using this
  rw [key]
  simp only [Outcome.ok_bind]
  cases hp : m.names.all (fun n => (amps n).isSome)
  · simp
  simp only [if_true]
  have hl := loop2 m.nmbWaves m (fun i s => do
      let ni ← s.waveName i
      forRange m.nmbWaves s fun j s => do
        let nj ← s.waveName j
        let w ← s.get i j
        s.set i j (w + (amps ni).getD 0 * (starRingEnd ℂ) ((amps nj).getD 0)))
    (fun i j s => do
        let nj ← s.waveName j
        let w ← s.get i j
        s.set i j (w + (amps (m.names.getD i "")).getD 0 * (starRingEnd ℂ) ((amps nj).getD 0)))
    (fun i j => m.mat i j + (amps (m.names.getD i "")).getD 0 * (starRingEnd ℂ) ((amps (m.names.getD j "")).getD 0))
    (fun i hi M => by
      rw [hm.waves] at hi
      rw [waveName_ok { m with mat := M } i hi]; simp [hi])
    (fun i hi j hj M hM => by
      rw [hm.waves] at hi hj
      rw [waveName_ok { m with mat := M } j hj]
      simp [IntMat.get, IntMat.set, hm.rows, hm.cols, hi, hj, hM])
  rw [hl, hm.waves]
  rfl

theorem renormalize_ok (m : IntMat) (hm : m.WF) (n : ℕ) :
    m.renormalize n = .ok { m with
      nmbEvents := n
      mat := (fun i j => if i < m.names.length ∧ j < m.names.length then
        m.mat i j * (((n : ℝ) / (m.nmbEvents : ℝ) : ℝ) : ℂ) else m.mat i j) } := by
  unfold IntMat.renormalize IntMat.mulAssign
  rw [mapLoop_ok _ m hm]
  simp only [Outcome.ok_bind]
  rw [if_neg]
  · rfl
  · have : 0 ≤ (m.nmbEvents : ℝ) * ((n : ℝ) / (m.nmbEvents : ℝ)) := by positivity
    linarith

theorem addAssign_ok (m o : IntMat) (hm : m.WF) (ho : o.WF) :
    m.addAssign o = if m.names.length = o.names.length ∧ m.names ⊆ o.names ∧ o.names ⊆ m.names then
      .ok { m with
        nmbEvents := m.nmbEvents + o.nmbEvents
        descs := o.descs
        mat := (fun i j => if i < m.names.length ∧ j < m.names.length then
          m.mat i j + o.entry (m.names.getD i "") (m.names.getD j "") else m.mat i j) }
      else .terminate := by
  unfold IntMat.addAssign
  rw [hasIdentical_ok m o hm ho]
  by_cases h : m.names.length = o.names.length ∧ m.names ⊆ o.names ∧ o.names ⊆ m.names
  · rw [if_pos h, decide_eq_true h]
    simp only [Outcome.ok_bind, if_true]
    rw [combineLoop_ok _ m o hm ho h.2.1]
    rfl
  · rw [if_neg h, decide_eq_false h]; simp

/-! ### the event loop of `integrate` -/

/-- sub-amplitudes of the `i`-th tree in an event. -/
def ampsAt (trees : List AmpTree) (ev i : ℕ) : List ℂ := ((trees[i]?).map (·.events.getD ev [])).getD []

theorem readAmps_ok {trees : List AmpTree} {ev : ℕ} {r : List (List ℂ)} (h : readAmps trees ev = .ok r) :
    r.length = trees.length ∧ ∀ i, r.getD i [] = ampsAt trees ev i := by
  induction trees generalizing r with
  | nil => simp [readAmps] at h; subst h; simp [ampsAt]
  | cons t ts ih =>
    simp only [readAmps] at h
    cases he : t.events[ev]? with
    | none => rw [he] at h; simp at h
    | some l =>
      rw [he] at h
      cases l with
      | nil => simp at h
      | cons a as =>
        simp only at h
        cases hq : readAmps ts ev with
        | ok q =>
          rw [hq] at h; simp at h; subst h
          obtain ⟨h1, h2⟩ := ih hq
          refine ⟨by simp [h1], fun i => ?_⟩
          cases i with
          | zero => simp [ampsAt, he]
          | succ i =>
            have := h2 i
            simpa [ampsAt] using this
        | terminate => rw [hq] at h; simp at h
        | ub => rw [hq] at h; simp at h

/-- events before `e` that pass the bin test. -/
def selUpTo (inBin : Option (ℕ → Bool)) (e : ℕ) : List ℕ :=
  (List.range e).filter fun ev => (inBin.map (· ev)).getD true

/-- what the event loop has accumulated. -/
def LoopInv (trees : List AmpTree) (weights : Option WeightFile) (inBin : Option (ℕ → Bool)) (e : ℕ) (s : Acc) : Prop :=
  (s.success = !s.stopped) ∧
  (s.stopped = false →
    let L := selUpTo inBin e
    s.counter = L.length ∧ s.weights = (weights.getD []).drop (if weights.isSome then L.length else 0) ∧
    (weights.isSome → L.length ≤ (weights.getD []).length) ∧
    s.sumWeight = ((List.range L.length).map fun k => 1 / fileWeight weights k).sum ∧
    (∀ ev ∈ L, ∀ i j, i < trees.length → j < trees.length → (ampsAt trees ev i).length = (ampsAt trees ev j).length) ∧
    ∀ i j, s.sumProd i j =
      (L.zipIdx.map fun ek => subSum (ampsAt trees ek.1 i) (ampsAt trees ek.1 j) * ((1 / fileWeight weights ek.2 : ℝ) : ℂ)).sum)

theorem eventStep_inv (trees : List AmpTree) (weights : Option WeightFile) (inBin : Option (ℕ → Bool)) (e : ℕ) (s r : Acc)
    (hs : LoopInv trees weights inBin e s) (h : eventStep trees weights.isSome inBin e s = .ok r) :
    LoopInv trees weights inBin (e + 1) r := by
  unfold eventStep at h
  by_cases hst : s.stopped = true
  · rw [if_pos hst] at h; cases h
    exact ⟨hs.1, fun hc => by simp [hst] at hc⟩
  rw [if_neg hst] at h
  have hst' : s.stopped = false := by simpa using hst
  by_cases hb : (inBin.map (· e)).getD true = false
  · rw [if_pos hb] at h; cases h
    have hL : selUpTo inBin (e + 1) = selUpTo inBin e := by
      simp [selUpTo, List.range_succ, hb]
    unfold LoopInv
    rw [hL]
    exact hs
  rw [if_neg hb] at h
  have hb' : (inBin.map (· e)).getD true = true := by simpa using hb
  have hL : selUpTo inBin (e + 1) = selUpTo inBin e ++ [e] := by
    simp [selUpTo, List.range_succ, List.filter_append, hb']
  obtain ⟨h1, h2⟩ := hs
  obtain ⟨c1, c2, c3, c4, c5, c6⟩ := h2 hst'
  -- the amplitudes of this event
  have finish : ∀ (w : ℝ) (ws : WeightFile), w = fileWeight weights (selUpTo inBin e).length →
      ws = (weights.getD []).drop (if weights.isSome then (selUpTo inBin e).length + 1 else 0) →
      (weights.isSome → (selUpTo inBin e).length + 1 ≤ (weights.getD []).length) →
      ((do
        let amps ← readAmps trees e
        if amps.all (fun a => amps.all fun b => a.length == b.length) then
          Outcome.ok ({ s with
            counter := s.counter + 1
            weights := ws
            sumWeight := s.sumWeight + 1 / w
            sumProd := (fun i j =>
              s.sumProd i j +
                (if weights.isSome then subSum (amps.getD i []) (amps.getD j []) * ((1 / w : ℝ) : ℂ)
                 else subSum (amps.getD i []) (amps.getD j []))) } : Acc)
        else .terminate) = .ok r) → LoopInv trees weights inBin (e + 1) r := by
    intro w ws hw hws hlen hr
    cases ha : readAmps trees e with
    | ok amps =>
      rw [ha] at hr
      simp only [Outcome.ok_bind] at hr
      obtain ⟨a1, a2⟩ := readAmps_ok ha
      by_cases hall : amps.all (fun a => amps.all fun b => a.length == b.length) = true
      · rw [if_pos hall] at hr
        cases hr
        refine ⟨h1, fun _ => ?_⟩
        simp only [hL]
        refine ⟨by simp [c1], by rw [hws]; simp, by simpa using hlen, ?_, ?_, ?_⟩
        · rw [c4]; simp [List.range_succ, hw]
        · intro ev hev i j hi hj
          rcases List.mem_append.1 hev with hev | hev
          · exact c5 ev hev i j hi hj
          · rw [List.mem_singleton] at hev
            subst hev
            rw [← a2, ← a2]
            have hi' : i < amps.length := by omega
            have hj' : j < amps.length := by omega
            rw [List.all_eq_true] at hall
            have := hall _ (List.getElem_mem hi')
            rw [List.all_eq_true] at this
            have := this _ (List.getElem_mem hj')
            simpa [hi', hj'] using this
        · intro i j
          rw [c6, a2, a2, List.zipIdx_append]
          simp only [List.map_append, List.sum_append, List.zipIdx_singleton, List.map_cons, List.map_nil, List.sum_cons,
            List.sum_nil, add_zero, Nat.zero_add]
          congr 1
          cases weights with
          | none => simp [hw, fileWeight]
          | some W => simp [hw]
      · rw [if_neg hall] at hr; cases hr
    | terminate => rw [ha] at hr; simp at hr
    | ub => rw [ha] at hr; simp at hr
  cases weights with
  | none =>
    simp only [Option.isSome_none, Bool.false_eq_true, if_false] at h
    refine finish 1 s.weights (by simp [fileWeight]) (by simpa using c2) (by simp) ?_
    simpa using h
  | some W =>
    simp only [Option.isSome_some, if_true, Option.getD_some] at h c2 c3
    cases hsw : s.weights with
    | nil =>
      rw [hsw] at h
      simp only at h
      cases h
      exact ⟨by simp, fun hc => by simp at hc⟩
    | cons w ws =>
      rw [hsw] at h
      simp only at h
      have hd := c2
      rw [hsw] at hd
      have hlt : (selUpTo inBin e).length < W.length := by
        by_contra hc
        rw [List.drop_of_length_le (by omega)] at hd
        simp at hd
      rw [List.drop_eq_getElem_cons hlt] at hd
      injection hd with hd1 hd2
      refine finish w ws (by simp [fileWeight, hlt, hd1]) (by simp [hd2]) (by simp; omega) ?_
      simpa using h

theorem subSum_eq (a b : List ℂ) (h : a.length = b.length) :
    subSum a b = ((List.range a.length).map fun q => a.getD q 0 * (starRingEnd ℂ) (b.getD q 0)).sum := by
  unfold subSum
  congr 1
  apply List.ext_getElem
  · simp [h]
  · intro i h1 h2
    simp at h1 h2
    simp [h2, ← h]

theorem sum_flatMap' {α : Type} (l : List α) (f : α → List ℂ) : (l.flatMap f).sum = (l.map fun a => (f a).sum).sum := by
  induction l with
  | nil => simp
  | cons a l ih => simp [ih]

theorem find_wave {trees : List AmpTree} (hn : (trees.map (·.wave)).Nodup) (i : ℕ) (hi : i < trees.length) :
    trees.find? (·.wave = (trees[i]).wave) = some trees[i] := by
  rw [List.find?_eq_some_iff_getElem]
  refine ⟨by simp, i, hi, rfl, fun j hj => ?_⟩
  have := List.nodup_iff_injective_get.1 hn
  simp only [Bool.not_eq_true', decide_eq_false_iff_not]
  intro hc
  have := @this ⟨j, by simp; omega⟩ ⟨i, by simpa using hi⟩ (by simpa using hc)
  simp at this; omega

theorem finish_ok (m : IntMat) (trees : List AmpTree) (nEv : ℕ) (weights : Option WeightFile) (inBin : Option (ℕ → Bool))
    (hne : trees ≠ []) (hn : (trees.map (·.wave)).Nodup) (hw : m.nmbWaves = trees.length) (hN : m.names = trees.map (·.wave))
    (r : IntMat) (h : IntMat.integrate.finish m trees nEv weights inBin = .ok (true, r)) :
    r.WF ∧ r.names = trees.map (·.wave) ∧ r.nmbEvents = (selUpTo inBin nEv).length ∧ r.descs = m.descs ∧
    (∀ ws, weights = some ws → (selUpTo inBin nEv).length ≤ ws.length) ∧
    ∀ a ∈ r.names, ∀ b ∈ r.names, r.entry a b = sampleSum
      ((selUpTo inBin nEv).zipIdx.flatMap fun ek => (List.range (nmbSub trees ek.1)).map fun q =>
        (eventWeight weights (selUpTo inBin nEv).length ek.2, treeAmp trees ek.1 q)) a b := by
  unfold IntMat.integrate.finish at h
  cases hl : forRange nEv ⟨0, 0, fun _ _ => 0, weights.getD [], true, false⟩ (eventStep trees weights.isSome inBin) with
  | terminate => rw [hl] at h; simp at h
  | ub => rw [hl] at h; simp at h
  | ok acc =>
    rw [hl] at h
    have inv := forRange_inv (LoopInv trees weights inBin) nEv _ acc _ (by
        refine ⟨by simp, fun _ => ?_⟩
        simp [selUpTo]) (fun i hi a b ha hb => eventStep_inv trees weights inBin i a b ha hb) hl
    simp only [Outcome.ok_bind] at h
    have h := Outcome.ok.inj h
    have hsucc : acc.success = true := (Prod.ext_iff.1 h).1
    have hr := (Prod.ext_iff.1 h).2
    simp only at hr
    obtain ⟨i1, i2⟩ := inv
    obtain ⟨c1, c2, c3, c4, c5, c6⟩ := i2 (by rw [hsucc] at i1; simpa using i1.symm)
    subst hr
    refine ⟨⟨by simp [IntMat.resize, hw, hN], by simp [IntMat.resize, hw, hN], by simp [IntMat.resize, hw, hN]⟩, hN, c1, rfl,
      fun ws hws => by subst hws; simpa using c3, ?_⟩
    intro a ha b hb
    simp only [IntMat.resize] at ha hb
    have ia := List.idxOf_lt_length_of_mem ha
    have ib := List.idxOf_lt_length_of_mem hb
    simp only [IntMat.entry, IntMat.resize]
    have la : m.names.idxOf a < trees.length := by simpa [hN] using ia
    have lb : m.names.idxOf b < trees.length := by simpa [hN] using ib
    rw [hw, if_pos ⟨la, lb⟩]
    have ga := getD_idxOf ha
    have gb := getD_idxOf hb
    generalize hia : m.names.idxOf a = i at *
    generalize hib : m.names.idxOf b = j at *
    have ea : a = (trees[i]).wave := by
      rw [hN] at ga
      simpa [la] using ga.symm
    have eb : b = (trees[j]).wave := by
      rw [hN] at gb
      simpa [lb] using gb.symm
    have ta : ∀ ev q, treeAmp trees ev q a = (ampsAt trees ev i).getD q 0 := by
      intro ev q
      unfold treeAmp ampsAt
      rw [ea, find_wave hn i la, List.getElem?_eq_getElem la]
    have tb : ∀ ev q, treeAmp trees ev q b = (ampsAt trees ev j).getD q 0 := by
      intro ev q
      unfold treeAmp ampsAt
      rw [eb, find_wave hn j lb, List.getElem?_eq_getElem lb]
    have hsub : ∀ ev, nmbSub trees ev = (ampsAt trees ev 0).length := by
      intro ev
      unfold nmbSub ampsAt
      cases trees <;> simp
    unfold sampleSum
    rw [List.map_flatMap, sum_flatMap', c6]
    have norm : (if weights.isSome = true then
        (((selUpTo inBin nEv).zipIdx.map fun ek => subSum (ampsAt trees ek.1 i) (ampsAt trees ek.1 j) *
          ((1 / fileWeight weights ek.2 : ℝ) : ℂ)).sum * ((1 / (acc.sumWeight / (acc.counter : ℝ)) : ℝ) : ℂ))
        else ((selUpTo inBin nEv).zipIdx.map fun ek => subSum (ampsAt trees ek.1 i) (ampsAt trees ek.1 j) *
          ((1 / fileWeight weights ek.2 : ℝ) : ℂ)).sum) =
        ((selUpTo inBin nEv).zipIdx.map fun ek => subSum (ampsAt trees ek.1 i) (ampsAt trees ek.1 j) *
          ((eventWeight weights (selUpTo inBin nEv).length ek.2 : ℝ) : ℂ)).sum := by
      cases weights with
      | none => simp [eventWeight, fileWeight]
      | some W =>
        simp only [Option.isSome_some, if_true]
        rw [← List.sum_map_mul_right]
        congr 1
        apply List.map_congr_left
        intro ek _
        rw [c4, c1]
        unfold eventWeight
        simp only
        push_cast
        rw [one_div_div]
        ring
    rw [norm]
    congr 1
    apply List.map_congr_left
    rintro ⟨ev, k⟩ hek
    have hev : ev ∈ selUpTo inBin nEv := by
      have := List.mem_zipIdx hek
      rw [this.2.2]; exact List.getElem_mem _
    have h0 : 0 < trees.length := List.length_pos_iff.2 hne
    simp only [List.map_map, Function.comp_def]
    rw [subSum_eq _ _ (c5 ev hev i j la lb), hsub, c5 ev hev 0 i h0 la, ← List.sum_map_mul_right]
    congr 1
    apply List.map_congr_left
    intro q _
    rw [ta, tb]; ring

end Rpwa.Integral

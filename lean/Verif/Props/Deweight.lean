import Verif.Spec.Deweight
/-!
# De-weighting of Monte Carlo events (C93): the files -/
namespace Rpwa.Deweight

open Rpwa.Storage MeasureTheory

/-- **C93** `maxWeight` is the largest weight, and zero if none is positive. -/
theorem maxWeight_spec (ws : List ℝ) : IsMaxWeight ws (maxWeight ws) := by
  unfold maxWeight
  have key : ∀ (ws : List ℝ) (m : ℝ), m ≤ ws.foldl (fun m w => if w > m then w else m) m ∧
      (∀ w ∈ ws, w ≤ ws.foldl (fun m w => if w > m then w else m) m) ∧
      (ws.foldl (fun m w => if w > m then w else m) m ∈ ws ∨ ws.foldl (fun m w => if w > m then w else m) m = m) := by
    intro ws
    induction ws with
    | nil => intro m; simp
    | cons x ws ih =>
      intro m
      rw [List.foldl_cons]
      obtain ⟨h1, h2, h3⟩ := ih (if x > m then x else m)
      by_cases hx : x > m
      · rw [if_pos hx] at h1 h2 h3 ⊢
        refine ⟨le_trans (le_of_lt hx) h1, ?_, ?_⟩
        · intro w hw
          rcases List.mem_cons.1 hw with rfl | hw
          · exact h1
          · exact h2 w hw
        · rcases h3 with h | h
          · exact Or.inl (List.mem_cons_of_mem _ h)
          · rw [h]; exact Or.inl List.mem_cons_self
      · rw [if_neg hx] at h1 h2 h3 ⊢
        refine ⟨h1, ?_, ?_⟩
        · intro w hw
          rcases List.mem_cons.1 hw with rfl | hw
          · exact le_trans (not_lt.1 hx) h1
          · exact h2 w hw
        · rcases h3 with h | h
          · exact Or.inl (List.mem_cons_of_mem _ h)
          · exact Or.inr h
  obtain ⟨h1, h2, h3⟩ := key ws 0
  exact ⟨h1, h2, h3⟩

theorem isMaxWeight_unique {ws : List ℝ} {m m' : ℝ} (h : IsMaxWeight ws m) (h' : IsMaxWeight ws m') : m = m' := by
  apply le_antisymm
  · rcases h.attained with ha | ha
    · exact h'.bound _ ha
    · rw [ha]; exact h'.nonneg
  · rcases h'.attained with ha | ha
    · exact h.bound _ ha
    · rw [ha]; exact h.nonneg

theorem maxWeight_eq {ws : List ℝ} {m : ℝ} (h : IsMaxWeight ws m) : maxWeight ws = m := isMaxWeight_unique (maxWeight_spec ws) h

theorem accepted_iff {w M c : ℝ} (hM : 0 < M) : accepted w M c = true ↔ c * M < w := by
  unfold accepted
  rw [if_neg (ne_of_gt hM)]
  simp only [gt_iff_lt, decide_eq_true_eq]
  exact lt_div_iff₀ hM

theorem accepted_zero {w c : ℝ} : accepted w 0 c = true ↔ 0 < w := by
  unfold accepted
  rw [if_pos rfl]
  simp

/-! ### the loop over the events -/

theorem addEvent_ok {w : EventWriter} {t : Tree} (hi : w.initialized = true) (ht : w.meta_.tree = some t) (e : Row)
    (he : e.prod.length = w.nProd ∧ e.decay.length = w.nDecay ∧ e.vals.length = w.nAdd) :
    w.addEvent e.prod e.decay e.vals = .ok { w with hashor := w.hashor ++ eventBytes e, meta_ := { w.meta_ with tree := some { t with rows := t.rows ++ [e] } } } := by
  unfold EventWriter.addEvent
  rw [if_neg (by simp [hi]), if_neg (by simp [he.1]), if_neg (by simp [he.2.1]), if_neg (by simp [he.2.2]), ht, updEvent_eq]
  rfl

/-- the events added to a writer. -/
def extend (w : EventWriter) (t : Tree) (evs : List Row) : EventWriter :=
  { w with hashor := w.hashor ++ evs.flatMap eventBytes, meta_ := { w.meta_ with tree := some { t with rows := t.rows ++ evs } } }

theorem extend_nil {w : EventWriter} {t : Tree} (ht : w.meta_.tree = some t) : extend w t [] = w := by
  unfold extend
  obtain ⟨a, ⟨b1, b2, b3, b4, b5, b6, b7, b8, b9⟩, c, d, e, f⟩ := w
  simp only at ht
  simp [ht]

theorem extend_cons (w : EventWriter) (t : Tree) (e : Row) (evs : List Row) :
    extend { w with hashor := w.hashor ++ eventBytes e, meta_ := { w.meta_ with tree := some { t with rows := t.rows ++ [e] } } } { t with rows := t.rows ++ [e] } evs =
      extend w t (e :: evs) := by
  unfold extend
  simp

theorem eraseIdx_length {names : List String} {vals : List Dbl} {idx : ℕ} (h : vals.length = names.length) (hi : idx < names.length) :
    (vals.eraseIdx idx).length = (names.eraseIdx idx).length := by
  rw [List.length_eraseIdx, List.length_eraseIdx, h]

theorem kept_eq (keep : ℕ → Prop) (idx : ℕ) (b : Row × ℕ → Bool) (l : List (Row × ℕ)) (h : ∀ e ∈ l, b e = true ↔ keep e.2) :
    (l.filter b).map (fun e => dropVal idx e.1) = open Classical in (l.filter fun e => decide (keep e.2)).map fun e => dropVal idx e.1 := by
  congr 1
  apply List.filter_congr
  intro e he
  by_cases hk : keep e.2
  · simp [hk, (h e he).2 hk]
  · have : b e ≠ true := fun hb => hk ((h e he).1 hb)
    simp [hk, this]

theorem deWeight_loop (val : Dbl → ℝ) (idx : ℕ) (maxW : ℝ) (rnd : ℕ → ℝ) (l : List (Row × ℕ)) :
    ∀ (w : EventWriter) (t : Tree) (k : ℕ), w.initialized = true → w.meta_.tree = some t →
      (∀ e ∈ l, e.1.prod.length = w.nProd ∧ e.1.decay.length = w.nDecay ∧ (e.1.vals.eraseIdx idx).length = w.nAdd) →
      ∃ n, l.foldlM (deWeightEvent val idx maxW rnd) (w, k) =
        .ok (extend w t ((l.filter fun e => accepted (val (e.1.vals.getD idx Dbl.zero)) maxW (rnd e.2)).map fun e => dropVal idx e.1), n) := by
  induction l with
  | nil =>
    intro w t k _ ht _
    exact ⟨k, by rw [List.filter_nil, List.map_nil, extend_nil ht]; rfl⟩
  | cons e l ih =>
    intro w t k hi ht hs
    rw [List.foldlM_cons]
    by_cases ha : accepted (val (e.1.vals.getD idx Dbl.zero)) maxW (rnd e.2) = true
    · have h1 : deWeightEvent val idx maxW rnd (w, k) e =
          .ok ({ w with hashor := w.hashor ++ eventBytes (dropVal idx e.1), meta_ := { w.meta_ with tree := some { t with rows := t.rows ++ [dropVal idx e.1] } } }, k + 1) := by
        unfold deWeightEvent
        rw [if_pos ha]
        have := addEvent_ok hi ht (dropVal idx e.1) (hs e List.mem_cons_self)
        unfold dropVal at this ⊢
        dsimp only at this ⊢
        rw [this]
        rfl
      rw [h1]
      obtain ⟨n, hn⟩ := ih { w with hashor := w.hashor ++ eventBytes (dropVal idx e.1), meta_ := { w.meta_ with tree := some { t with rows := t.rows ++ [dropVal idx e.1] } } }
        { t with rows := t.rows ++ [dropVal idx e.1] } (k + 1) hi rfl (fun x hx => hs x (List.mem_cons_of_mem _ hx))
      refine ⟨n, hn.trans ?_⟩
      rw [extend_cons, List.filter_cons_of_pos (by exact ha), List.map_cons]
    · have h1 : deWeightEvent val idx maxW rnd (w, k) e = .ok (w, k) := by
        unfold deWeightEvent
        rw [if_neg ha]
      rw [h1]
      obtain ⟨n, hn⟩ := ih w t k hi ht (fun x hx => hs x (List.mem_cons_of_mem _ hx))
      refine ⟨n, hn.trans ?_⟩
      rw [List.filter_cons_of_neg (by simpa using ha)]

theorem Weighted.idx {em : EventMeta} {t : Tree} {idx : ℕ} (h : Weighted em t idx) : em.addNames.idxOf? "weight" = some idx := by
  rw [List.idxOf?_eq_some_iff]
  obtain ⟨hlt, he⟩ := List.getElem?_eq_some_iff.1 h.name
  refine ⟨hlt, he, fun j hj hc => h.first j hj ?_⟩
  rw [List.getElem?_eq_getElem (by omega), hc]

theorem finalize_extend (md5 : Hashor → String) (a : InitArgs) (evs : List Row) (ht : a.eventsType = .real) (hl : ∀ r ∈ evs, r.vals.length = a.addNames.length) :
    ∃ m, ((extend (EventWriter.new.initialize a).2 ⟨a.addNames, []⟩ evs).finalize md5).1 = some m ∧
      FileOf md5 m a.auxString a.prodNames a.decayNames a.bounds a.addNames evs := by
  refine ⟨_, rfl, rfl, ht, rfl, rfl, rfl, rfl, fun _ => rfl, rfl, fun hg => ?_⟩
  rw [recalculateHash_spec md5 (t := ⟨a.addNames, evs⟩) ⟨rfl, rfl, hl⟩ hg]
  rfl

/-- the file written by `deWeight`, in terms of `accepted`. -/
theorem deWeight_accepted (md5 : Hashor → String) (val : Dbl → ℝ) (f : ℝ) (rnd : ℕ → ℝ) {em : EventMeta} {t : Tree} {idx : ℕ} (h : Weighted em t idx)
    {M : ℝ} (hM : IsMaxWeight (weights val idx t.rows) M) :
    ∃ m, deWeight md5 val f rnd em = .ok (m, decide (t.rows.length ≠ 0)) ∧
      FileOf md5 m em.auxString em.prodNames em.decayNames em.bounds (em.addNames.eraseIdx idx)
        ((t.rows.zipIdx.filter fun e => accepted (val (e.1.vals.getD idx Dbl.zero)) (M * f) (rnd e.2)).map fun e => dropVal idx e.1) := by
  obtain ⟨hlt, -⟩ := List.getElem?_eq_some_iff.1 h.name
  have hrow : ∀ r ∈ t.rows, (r.vals.eraseIdx idx).length = (em.addNames.eraseIdx idx).length := fun r hr => eraseIdx_length (h.file.len r hr) hlt
  have hmem : ∀ e ∈ t.rows.zipIdx, e.1 ∈ t.rows := fun e he => by
    obtain ⟨a, b⟩ := e
    exact List.mem_of_getElem? (List.mem_zipIdx_iff_getElem?.1 he)
  obtain ⟨n, hn⟩ := deWeight_loop val idx (M * f) rnd t.rows.zipIdx
    (EventWriter.new.initialize ⟨em.auxString, .real, em.prodNames, em.decayNames, em.bounds, em.addNames.eraseIdx idx⟩).2 ⟨em.addNames.eraseIdx idx, []⟩ 0 rfl rfl
    (fun e he => ⟨(h.shape _ (hmem e he)).1, (h.shape _ (hmem e he)).2, hrow _ (hmem e he)⟩)
  obtain ⟨m, hm1, hm2⟩ := finalize_extend md5 ⟨em.auxString, .real, em.prodNames, em.decayNames, em.bounds, em.addNames.eraseIdx idx⟩
    ((t.rows.zipIdx.filter fun e => accepted (val (e.1.vals.getD idx Dbl.zero)) (M * f) (rnd e.2)).map fun e => dropVal idx e.1) rfl (by
      intro r hr
      obtain ⟨e, he, rfl⟩ := List.mem_map.1 hr
      exact hrow _ (hmem e (List.mem_filter.1 he).1))
  refine ⟨m, ?_, hm2⟩
  have hmax := maxWeight_eq hM
  unfold weights at hmax
  unfold deWeight
  rw [h.file.tree]
  dsimp only
  rw [h.idx]
  dsimp only
  rw [hmax, if_neg (by simp [EventWriter.initialize, EventWriter.new]), hn]
  simp only [Outcome.ok_bind]
  rw [hm1]

/-- **C93** the file written by `deWeight`: the metadata of the input without the variable "weight", type real, no auxiliary values, and in the
same order exactly the events whose random number times the adjusted largest weight is less than their weight; its hash is that of its content.
The script ends without an exception if there are events. -/
theorem deWeight_file (md5 : Hashor → String) (val : Dbl → ℝ) (f : ℝ) (rnd : ℕ → ℝ) {em : EventMeta} {t : Tree} {idx : ℕ} (h : Weighted em t idx)
    {M : ℝ} (hM : IsMaxWeight (weights val idx t.rows) M) (hpos : 0 < M * f) :
    ∃ m, deWeight md5 val f rnd em = .ok (m, decide (t.rows.length ≠ 0)) ∧
      FileOf md5 m em.auxString em.prodNames em.decayNames em.bounds (em.addNames.eraseIdx idx)
        (kept (fun i => ∃ w, (weights val idx t.rows)[i]? = some w ∧ rnd i * (M * f) < w) idx t.rows) := by
  obtain ⟨m, h1, h2⟩ := deWeight_accepted md5 val f rnd h hM
  refine ⟨m, h1, ?_⟩
  rw [kept_eq (fun i => ∃ w, (weights val idx t.rows)[i]? = some w ∧ rnd i * (M * f) < w) idx _ t.rows.zipIdx] at h2
  · exact h2
  · rintro ⟨r, i⟩ he
    rw [accepted_iff hpos]
    have hr := List.mem_zipIdx_iff_getElem?.1 he
    have hw : (weights val idx t.rows)[i]? = some (val (r.vals.getD idx Dbl.zero)) := by
      unfold weights
      rw [List.getElem?_map, hr]
      rfl
    constructor
    · intro hlt
      exact ⟨_, hw, hlt⟩
    · rintro ⟨w, hw', hlt⟩
      rw [hw] at hw'
      rw [Option.some.inj hw']
      exact hlt

/-- **C93** if the adjusted largest weight is zero (no positive weight, or factor zero), exactly the events with a positive weight are kept. -/
theorem deWeight_zero (md5 : Hashor → String) (val : Dbl → ℝ) (f : ℝ) (rnd : ℕ → ℝ) {em : EventMeta} {t : Tree} {idx : ℕ} (h : Weighted em t idx)
    {M : ℝ} (hM : IsMaxWeight (weights val idx t.rows) M) (hz : M * f = 0) :
    ∃ m, deWeight md5 val f rnd em = .ok (m, decide (t.rows.length ≠ 0)) ∧
      FileOf md5 m em.auxString em.prodNames em.decayNames em.bounds (em.addNames.eraseIdx idx)
        (kept (fun i => ∃ w, (weights val idx t.rows)[i]? = some w ∧ 0 < w) idx t.rows) := by
  obtain ⟨m, h1, h2⟩ := deWeight_accepted md5 val f rnd h hM
  refine ⟨m, h1, ?_⟩
  rw [kept_eq (fun i => ∃ w, (weights val idx t.rows)[i]? = some w ∧ 0 < w) idx _ t.rows.zipIdx] at h2
  · exact h2
  · rintro ⟨r, i⟩ he
    rw [hz, accepted_zero]
    have hr := List.mem_zipIdx_iff_getElem?.1 he
    have hw : (weights val idx t.rows)[i]? = some (val (r.vals.getD idx Dbl.zero)) := by
      unfold weights
      rw [List.getElem?_map, hr]
      rfl
    constructor
    · intro hlt
      exact ⟨_, hw, hlt⟩
    · rintro ⟨w, hw', hlt⟩
      rw [hw] at hw'
      rw [Option.some.inj hw']
      exact hlt

/-- **C93** without a tree, or without a variable "weight", nothing is written. -/
theorem deWeight_refused (md5 : Hashor → String) (val : Dbl → ℝ) (f : ℝ) (rnd : ℕ → ℝ) (em : EventMeta) (h : em.tree = none ∨ "weight" ∉ em.addNames) :
    deWeight md5 val f rnd em = .terminate := by
  unfold deWeight
  rcases h with h | h
  · rw [h]
  · cases em.tree with
    | none => rfl
    | some t =>
      dsimp only
      rw [List.idxOf?_eq_none_iff.2 h]

/-! ### generated pseudo data -/

theorem vars_eq (o : GenOptions) (e : GenEvent) : o.vars e = genVars o e := by
  unfold GenOptions.vars genVars
  cases o.names <;> rfl

theorem varNames_eq (o : GenOptions) : o.varNames = genNames o := by
  unfold GenOptions.varNames genNames
  cases o.names <;> rfl

theorem vars_length (o : GenOptions) (e : GenEvent) : (genVars o e).length = (genNames o).length := by
  unfold genVars genNames
  cases o.names <;> rfl

theorem genLoop_rest (o : GenOptions) (es : List GenEvent) : ∀ (w : EventWriter) (t : Tree), w.initialized = true → w.meta_.tree = some t →
    (∀ e ∈ es, e.prod.length = w.nProd ∧ e.decay.length = w.nDecay ∧ (genVars o e ++ [e.weight]).length = w.nAdd) →
    genLoop o w false es = .ok (extend w t (es.map (genRow o))) := by
  induction es with
  | nil =>
    intro w t _ ht _
    rw [List.map_nil, extend_nil ht]
    rfl
  | cons e es ih =>
    intro w t hi ht hs
    unfold genLoop
    have hadd := addEvent_ok hi ht (genRow o e) (hs e List.mem_cons_self)
    rw [vars_eq]
    rw [show w.addEvent e.prod e.decay (genVars o e ++ [e.weight]) = _ from hadd]
    simp only [Outcome.ok_bind]
    rw [ih { w with hashor := w.hashor ++ eventBytes (genRow o e), meta_ := { w.meta_ with tree := some { t with rows := t.rows ++ [genRow o e] } } }
      { t with rows := t.rows ++ [genRow o e] } hi rfl (fun x hx => hs x (List.mem_cons_of_mem _ hx)), extend_cons, List.map_cons]

/-- **C93** the file written by `genPseudoData` after any positive number of events: the events in order, each with mass and t' (if wanted) and the
intensity of the model under the name "weight"; its hash is that of its content. -/
theorem genPseudoData_file (md5 : Hashor → String) (o : GenOptions) (e : GenEvent) (es : List GenEvent) (hm : o.modelOk e.prodNames e.decayNames = true)
    (hs : SameShape e.prodNames e.decayNames (e :: es)) :
    ∃ m, genPseudoData md5 o (e :: es) = .ok (some m) ∧
      FileOf md5 m o.aux e.prodNames e.decayNames (genBounds o) (genNames o ++ ["weight"]) ((e :: es).map (genRow o)) := by
  have hlen : ∀ x : GenEvent, (genVars o x ++ [x.weight]).length = (genNames o ++ ["weight"]).length := fun x => by simp [vars_length]
  have hloop : genLoop o EventWriter.new true (e :: es) = .ok (extend (EventWriter.new.initialize ⟨o.aux, .real, e.prodNames, e.decayNames, genBounds o, genNames o ++ ["weight"]⟩).2
      ⟨genNames o ++ ["weight"], []⟩ ((e :: es).map (genRow o))) := by
    have hf : (genFirst o EventWriter.new e).1 = some (EventWriter.new.initialize ⟨o.aux, .real, e.prodNames, e.decayNames, genBounds o, genNames o ++ ["weight"]⟩).2 := by
      unfold genFirst
      dsimp only
      rw [varNames_eq]
      rw [if_neg (by simp [EventWriter.initialize, EventWriter.new]), if_neg (by simp [hm])]
      rfl
    have hone : genLoop o EventWriter.new true (e :: es) =
        genLoop o (EventWriter.new.initialize ⟨o.aux, .real, e.prodNames, e.decayNames, genBounds o, genNames o ++ ["weight"]⟩).2 false (e :: es) := by
      conv_lhs => unfold genLoop
      rw [hf]
      dsimp only
      conv_rhs => unfold genLoop
    rw [hone]
    exact genLoop_rest o (e :: es) _ _ rfl rfl fun x hx => ⟨(hs x hx).1, (hs x hx).2, hlen x⟩
  obtain ⟨m, h1, h2⟩ := finalize_extend md5 ⟨o.aux, .real, e.prodNames, e.decayNames, genBounds o, genNames o ++ ["weight"]⟩ ((e :: es).map (genRow o)) rfl (by
    intro r hr
    obtain ⟨x, -, rfl⟩ := List.mem_map.1 hr
    exact hlen x)
  refine ⟨m, ?_, h2⟩
  unfold genPseudoData
  rw [hloop]
  simp only [Outcome.ok_bind]
  rw [h1]

/-- **C93** `genPseudoData` that is interrupted after `k > 0` of the events leaves a readable file with a valid hash that contains the first `k` rows of
the file of the complete run. -/
theorem genPseudoData_interrupted (md5 : Hashor → String) (o : GenOptions) (e : GenEvent) (es : List GenEvent) (hm : o.modelOk e.prodNames e.decayNames = true)
    (hs : SameShape e.prodNames e.decayNames (e :: es)) (k : ℕ) (hk : 0 < k) :
    ∃ m m', genPseudoData md5 o (e :: es) = .ok (some m) ∧ genPseudoData md5 o ((e :: es).take k) = .ok (some m') ∧
      ∃ rows, m.tree = some ⟨genNames o ++ ["weight"], rows⟩ ∧ rows.length = es.length + 1 ∧
        FileOf md5 m' m.auxString m.prodNames m.decayNames m.bounds m.addNames (rows.take k) := by
  obtain ⟨m, h1, h2⟩ := genPseudoData_file md5 o e es hm hs
  obtain ⟨k, rfl⟩ : ∃ j, k = j + 1 := ⟨k - 1, by omega⟩
  obtain ⟨m', h1', h2'⟩ := genPseudoData_file md5 o e (es.take k) hm (fun x hx => hs x (by
    rcases List.mem_cons.1 hx with h | h
    · rw [h]; exact List.mem_cons_self
    · exact List.mem_cons_of_mem _ (List.mem_of_mem_take h)))
  refine ⟨m, m', h1, h1', (e :: es).map (genRow o), h2.tree, by simp, ?_⟩
  rw [h2.auxString, h2.prod, h2.decay, h2.limits, h2.addNames, ← List.map_take]
  exact h2'

/-- **C93** without events there is no metadata in the file: it cannot be read as an event file. -/
theorem genPseudoData_none (md5 : Hashor → String) (o : GenOptions) : genPseudoData md5 o [] = .ok none := rfl

/-- **C93** if the amplitudes of the model cannot be initialized, the file that remains is a valid event file without events. -/
theorem genPseudoData_model_fails (md5 : Hashor → String) (o : GenOptions) (e : GenEvent) (es : List GenEvent) (hm : o.modelOk e.prodNames e.decayNames = false) :
    ∃ m, genPseudoData md5 o (e :: es) = .ok (some m) ∧
      FileOf md5 m o.aux e.prodNames e.decayNames (genBounds o) (genNames o ++ ["weight"]) [] := by
  obtain ⟨m, h1, h2⟩ := finalize_extend md5 ⟨o.aux, .real, e.prodNames, e.decayNames, genBounds o, genNames o ++ ["weight"]⟩ [] rfl (by simp)
  refine ⟨m, ?_, h2⟩
  have hf : (genFirst o EventWriter.new e).1 = none ∧ (genFirst o EventWriter.new e).2 =
      (EventWriter.new.initialize ⟨o.aux, .real, e.prodNames, e.decayNames, genBounds o, genNames o ++ ["weight"]⟩).2 := by
    unfold genFirst
    dsimp only
    rw [varNames_eq]
    rw [if_neg (by simp [EventWriter.initialize, EventWriter.new]), if_pos (by simp [hm])]
    exact ⟨rfl, rfl⟩
  rw [extend_nil rfl] at h1
  unfold genPseudoData genLoop
  rw [hf.1]
  dsimp only
  rw [hf.2]
  simp only [Outcome.ok_bind]
  rw [h1]

/-- **C93** generating and de-weighting: the events are kept in order with mass and t' as stored, the weight removed; event `i` is kept exactly if
its random number times the adjusted largest intensity is less than its intensity. -/
theorem generate_deWeight (md5 : Hashor → String) (val : Dbl → ℝ) (f : ℝ) (rnd : ℕ → ℝ) (o : GenOptions) (e : GenEvent) (es : List GenEvent)
    (hm : o.modelOk e.prodNames e.decayNames = true) (hs : SameShape e.prodNames e.decayNames (e :: es)) (hw : "weight" ∉ genNames o)
    {M : ℝ} (hM : IsMaxWeight ((e :: es).map fun x => val x.weight) M) (hpos : 0 < M * f) :
    ∃ m m', genPseudoData md5 o (e :: es) = .ok (some m) ∧ deWeight md5 val f rnd m = .ok (m', true) ∧
      FileOf md5 m' o.aux e.prodNames e.decayNames (genBounds o) (genNames o)
        (open Classical in ((e :: es).zipIdx.filter fun x => decide (rnd x.2 * (M * f) < val x.1.weight)).map fun x => ⟨x.1.prod, x.1.decay, genVars o x.1⟩) := by
  obtain ⟨m, h1, h2⟩ := genPseudoData_file md5 o e es hm hs
  have hlast : ∀ (vs : List Dbl) (w : Dbl), vs.length = (genNames o).length → (vs ++ [w]).getD (genNames o).length Dbl.zero = w := by
    intro vs w hv
    rw [← hv, List.getD_eq_getElem?_getD, List.getElem?_concat_length]
    rfl
  have herase : ∀ {α : Type} (vs : List α) (w : α) (n : ℕ), vs.length = n → (vs ++ [w]).eraseIdx n = vs := by
    intro α vs w n hv
    rw [← hv, List.eraseIdx_append_of_length_le le_rfl]
    simp
  have hW : Weighted m ⟨genNames o ++ ["weight"], (e :: es).map (genRow o)⟩ (genNames o).length := by
    refine ⟨⟨h2.tree, h2.addNames.symm, ?_⟩, ?_, ?_, ?_⟩
    · intro r hr
      obtain ⟨x, -, rfl⟩ := List.mem_map.1 hr
      rw [h2.addNames]
      simp [genRow, vars_length]
    · intro r hr
      obtain ⟨x, hx, rfl⟩ := List.mem_map.1 hr
      rw [h2.prod, h2.decay]
      exact hs x hx
    · rw [h2.addNames, List.getElem?_concat_length]
    · intro i hi hc
      rw [h2.addNames, List.getElem?_append_left hi] at hc
      exact hw (List.mem_of_getElem? hc)
  have hws : weights val (genNames o).length ((e :: es).map (genRow o)) = (e :: es).map fun x => val x.weight := by
    unfold weights
    rw [List.map_map]
    apply List.map_congr_left
    intro x _
    simp only [Function.comp, genRow]
    rw [hlast _ _ (vars_length o x)]
  obtain ⟨m', h3, h4⟩ := deWeight_accepted md5 val f rnd hW (M := M) (by rw [hws]; exact hM)
  refine ⟨m, m', h1, ?_, ?_⟩
  · rw [h3]
    simp
  · rw [h2.auxString, h2.prod, h2.decay, h2.limits, h2.addNames, herase _ _ _ rfl] at h4
    convert h4 using 1
    dsimp only
    rw [List.zipIdx_map, List.filter_map, List.map_map]
    congr 1
    · funext x
      simp only [Function.comp, dropVal, genRow, Prod.map]
      rw [herase _ _ _ (vars_length o x.1)]
    · apply List.filter_congr
      intro x _
      simp only [Function.comp, genRow, Prod.map]
      rw [hlast _ _ (vars_length o x.1), Bool.eq_iff_iff, accepted_iff hpos, decide_eq_true_eq]
      rfl

end Rpwa.Deweight

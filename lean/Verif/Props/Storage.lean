import Verif.Model.Storage
import Verif.Lemmas.Outcome
import Mathlib.Data.List.Basic
import Mathlib.Data.List.Nodup
import Mathlib.Data.List.OfFn
import Mathlib.Tactic.Ring
import Mathlib.Tactic.Linarith
/-!
# Event and amplitude files (C37, C38) -/
namespace Rpwa.Storage

/-! ### specification -/

/-- bytes of a vector. -/
def vecBytes (v : Vec3) : List UInt8 := List.ofFn v.x ++ List.ofFn v.y ++ List.ofFn v.z

/-- bytes of an event, in the order production momenta, decay momenta, additional variables. -/
def eventBytes (r : Row) : List UInt8 := r.prod.flatMap vecBytes ++ r.decay.flatMap vecBytes ++ r.vals.flatMap fun v => List.ofFn v

/-- bytes of an amplitude. -/
def ampBytes (a : Dbl × Dbl) : List UInt8 := List.ofFn a.1 ++ List.ofFn a.2

/-- names of additional variables that can be read back: no name twice, and none of the names of the two branches with momenta. -/
def GoodNames (names : List String) : Prop := names.Nodup ∧ ∀ n ∈ names, n ∉ reserved

/-- an event file as written by this code. -/
structure WellFormed (m : EventMeta) (t : Tree) : Prop where
  tree : m.tree = some t
  cols : t.cols = m.addNames
  len : ∀ r ∈ t.rows, r.vals.length = m.addNames.length

/-! ### bytes -/

theorem foldl_updDbl (vs : List Dbl) (h : Hashor) : vs.foldl updDbl h = h ++ vs.flatMap fun v => List.ofFn v := by
  induction vs generalizing h with
  | nil => simp
  | cons v vs ih => rw [List.foldl_cons, ih]; simp [updDbl]

theorem foldl_updVec3 (vs : List Vec3) (h : Hashor) : vs.foldl updVec3 h = h ++ vs.flatMap vecBytes := by
  induction vs generalizing h with
  | nil => simp
  | cons v vs ih => rw [List.foldl_cons, ih]; simp [updVec3, updDbl, vecBytes]

theorem updEvent_eq (h : Hashor) (p d : List Vec3) (v : List Dbl) : updEvent h p d v = h ++ eventBytes ⟨p, d, v⟩ := by
  unfold updEvent eventBytes
  rw [foldl_updDbl, foldl_updVec3, foldl_updVec3]
  simp

theorem foldl_updComplex (as : List (Dbl × Dbl)) (h : Hashor) : as.foldl updComplex h = h ++ as.flatMap ampBytes := by
  induction as generalizing h with
  | nil => simp
  | cons v vs ih => rw [List.foldl_cons, ih]; simp [updComplex, updDbl, ampBytes]

theorem foldl_updString (es : List EventMeta) (h : Hashor) :
    es.foldl (fun h e => updString h e.contentHash) h = h ++ es.flatMap fun e => e.contentHash.toUTF8.data.toList := by
  induction es generalizing h with
  | nil => simp
  | cons v vs ih => rw [List.foldl_cons, ih]; simp [updString]

/-! ### reading additional variables -/

theorem foldl_set_other (addr : ℕ → Option ℕ) (f : ℕ → Dbl) (i : ℕ) (cs : List ℕ) (slots : List Dbl) (h : ∀ c ∈ cs, addr c ≠ some i) :
    (cs.foldl (fun s c => match addr c with | some i => s.set i (f c) | none => s) slots)[i]? = slots[i]? := by
  induction cs generalizing slots with
  | nil => rfl
  | cons c cs ih =>
    rw [List.foldl_cons, ih _ (fun c' hc' => h c' (List.mem_cons_of_mem _ hc'))]
    have hc := h c List.mem_cons_self
    cases ha : addr c with
    | none => rfl
    | some j =>
      have : j ≠ i := fun he => hc (by rw [ha, he])
      simp [List.getElem?_set_ne this]

theorem foldl_set_length (addr : ℕ → Option ℕ) (f : ℕ → Dbl) (cs : List ℕ) (slots : List Dbl) :
    (cs.foldl (fun s c => match addr c with | some i => s.set i (f c) | none => s) slots).length = slots.length := by
  induction cs generalizing slots with
  | nil => rfl
  | cons c cs ih =>
    rw [List.foldl_cons, ih]
    cases addr c <;> simp

theorem foldl_set_get (addr : ℕ → Option ℕ) (f : ℕ → Dbl) (i c₀ : ℕ) (cs : List ℕ) (slots : List Dbl) (hi : i < slots.length)
    (hu : ∀ c, addr c = some i → c = c₀) (ha : addr c₀ = some i) (hc : c₀ ∈ cs) :
    (cs.foldl (fun s c => match addr c with | some i => s.set i (f c) | none => s) slots)[i]? = some (f c₀) := by
  induction cs generalizing slots with
  | nil => simp at hc
  | cons c cs ih =>
    rw [List.foldl_cons]
    by_cases hcs : c₀ ∈ cs
    · apply ih _ _ hcs
      cases addr c <;> simp [hi]
    · have hcc : c₀ = c := by
        rcases List.mem_cons.1 hc with h | h
        · exact h
        · exact absurd h hcs
      subst hcc
      rw [foldl_set_other]
      · rw [ha]
        simp [hi]
      · intro c' hc' he
        exact hcs (hu c' he ▸ hc')

/-- what `setAddresses` establishes. -/
theorem setAddresses_spec (cols names : List String) (hn : names.Nodup) (hr : ∀ n ∈ names, n ∉ reserved) (hm : ∀ n ∈ names, n ∈ cols) :
    ∃ addr, setAddresses cols names = some addr ∧ ∀ c i, addr c = some i ↔ ∃ n, names[i]? = some n ∧ cols.idxOf n = c := by
  unfold setAddresses
  have key : ∀ (ns : List String) (k : ℕ) (addr₀ : ℕ → Option ℕ), ns.Nodup → (∀ n ∈ ns, n ∉ reserved) → (∀ n ∈ ns, n ∈ cols) →
      (∀ c i, addr₀ c = some i → ∀ n ∈ ns, cols.idxOf n ≠ c) →
      ∃ addr, (ns.zipIdx k).foldlM (fun addr ni => (branchOf cols ni.1).map fun c => Function.update addr c (some ni.2)) addr₀ = some addr ∧
        ∀ c i, addr c = some i ↔ (addr₀ c = some i ∨ ∃ n j, ns[j]? = some n ∧ i = k + j ∧ cols.idxOf n = c) := by
    intro ns
    induction ns with
    | nil =>
      intro k addr₀ _ _ _ _
      exact ⟨addr₀, rfl, by simp⟩
    | cons n ns ih =>
      intro k addr₀ hnd hres hmem hdis
      rw [List.zipIdx_cons, List.foldlM_cons]
      have hb : branchOf cols n = some (cols.idxOf n) := by
        unfold branchOf
        rw [if_neg (hres n List.mem_cons_self)]
        rw [List.idxOf?_eq_some_iff]
        have hlt : cols.idxOf n < cols.length := List.idxOf_lt_length_of_mem (hmem n List.mem_cons_self)
        refine ⟨hlt, List.getElem_idxOf hlt, ?_⟩
        intro j hj he
        have := List.not_of_lt_findIdx (show j < List.findIdx (· == n) cols from hj)
        simp [he] at this
      dsimp only
      rw [hb]
      have hnd' := List.nodup_cons.1 hnd
      obtain ⟨addr, h1, h2⟩ := ih (k + 1) (Function.update addr₀ (cols.idxOf n) (some k)) hnd'.2
        (fun x hx => hres x (List.mem_cons_of_mem _ hx)) (fun x hx => hmem x (List.mem_cons_of_mem _ hx)) (by
          intro c i hci x hx hxc
          by_cases hcn : c = cols.idxOf n
          · have hxn : x = n := by
              have := (List.idxOf_inj (hmem x (List.mem_cons_of_mem _ hx))).1 (hxc.trans hcn)
              exact this
            subst hxn
            exact hnd'.1 hx
          · rw [Function.update_of_ne hcn] at hci
            exact hdis c i hci x (List.mem_cons_of_mem _ hx) hxc)
      refine ⟨addr, h1, fun c i => ?_⟩
      rw [h2]
      by_cases hcn : c = cols.idxOf n
      · subst hcn
        rw [Function.update_self]
        constructor
        · rintro (h | ⟨x, j, hj, hi, hx⟩)
          · right
            exact ⟨n, 0, rfl, by have := Option.some.inj h; omega, rfl⟩
          · right
            exact ⟨x, j + 1, by simpa using hj, by omega, hx⟩
        · rintro (h | ⟨x, j, hj, hi, hx⟩)
          · exact absurd rfl (hdis _ _ h n List.mem_cons_self)
          · cases j with
            | zero => left; rw [hi, Nat.add_zero]
            | succ j => right; exact ⟨x, j, by simpa using hj, by omega, hx⟩
      · rw [Function.update_of_ne hcn]
        constructor
        · rintro (h | ⟨x, j, hj, hi, hx⟩)
          · exact Or.inl h
          · exact Or.inr ⟨x, j + 1, by simpa using hj, by omega, hx⟩
        · rintro (h | ⟨x, j, hj, hi, hx⟩)
          · exact Or.inl h
          · cases j with
            | zero =>
              have hxn : n = x := by simpa using hj
              exact absurd (hxn ▸ hx).symm hcn
            | succ j => exact Or.inr ⟨x, j, by simpa using hj, by omega, hx⟩
  obtain ⟨addr, h1, h2⟩ := key names 0 (fun _ => none) hn hr hm (by simp)
  refine ⟨addr, h1, fun c i => ?_⟩
  rw [h2]
  constructor
  · rintro (h | ⟨n, j, hj, hi, hc⟩)
    · simp at h
    · rw [Nat.zero_add] at hi
      exact ⟨n, by rw [hi]; exact hj, hc⟩
  · rintro ⟨n, hn, hc⟩
    exact Or.inr ⟨n, i, hn, by omega, hc⟩

/-- values of the variables `names` in a row of a tree with these columns. -/
def select (cols names : List String) (vals : List Dbl) : List Dbl := names.map fun n => vals.getD (cols.idxOf n) Dbl.zero

theorem readRow_spec {cols names : List String} (hm : ∀ n ∈ names, n ∈ cols) {addr : ℕ → Option ℕ}
    (ha : ∀ c i, addr c = some i ↔ ∃ n, names[i]? = some n ∧ cols.idxOf n = c) (row : Row) (hl : row.vals.length = cols.length)
    (slots : List Dbl) (hs : slots.length = names.length) : readRow addr row slots = select cols names row.vals := by
  unfold readRow select
  apply List.ext_getElem?
  intro i
  by_cases hi : i < names.length
  · have hni : names[i]? = some names[i] := List.getElem?_eq_getElem hi
    refine (foldl_set_get addr (fun c => row.vals.getD c Dbl.zero) i (cols.idxOf names[i]) (List.range row.vals.length) slots (by omega) ?_ ?_ ?_).trans ?_
    rotate_left 3
    · rw [List.getElem?_map, hni]
      rfl
    · intro c hc
      obtain ⟨n, hn, hc'⟩ := (ha c i).1 hc
      rw [hni] at hn
      rw [Option.some.inj hn, hc']
    · exact (ha _ _).2 ⟨names[i], hni, rfl⟩
    · rw [List.mem_range, hl]
      exact List.idxOf_lt_length_of_mem (hm _ (List.getElem_mem hi))
  · rw [List.getElem?_eq_none, List.getElem?_eq_none]
    · simp; omega
    · refine le_trans (le_of_eq (foldl_set_length addr (fun c => row.vals.getD c Dbl.zero) (List.range row.vals.length) slots)) ?_
      omega

theorem select_self {names : List String} (hn : names.Nodup) (vals : List Dbl) (hl : vals.length = names.length) : select names names vals = vals := by
  unfold select
  apply List.ext_getElem?
  intro i
  by_cases hi : i < names.length
  · rw [List.getElem?_map, List.getElem?_eq_getElem hi, Option.map_some, hn.idxOf_getElem i hi, List.getD_eq_getElem?_getD,
      List.getElem?_eq_getElem (by omega)]
    rfl
  · rw [List.getElem?_eq_none, List.getElem?_eq_none]
    · omega
    · simp; omega

/-- bytes hashed for a well-formed file: its events in order. -/
theorem updateHashor_spec {m : EventMeta} {t : Tree} (hw : WellFormed m t) (hg : GoodNames m.addNames) (h : Hashor) :
    m.updateHashor h = some (h ++ t.rows.flatMap eventBytes) := by
  unfold EventMeta.updateHashor
  rw [hw.tree]
  obtain ⟨addr, h1, h2⟩ := setAddresses_spec t.cols m.addNames hg.1 hg.2 (by rw [hw.cols]; exact fun n hn => hn)
  simp only [Option.bind_eq_bind, Option.bind_some, h1]
  have key : ∀ (rows : List Row) (h : Hashor) (slots : List Dbl), slots.length = m.addNames.length → (∀ r ∈ rows, r.vals.length = m.addNames.length) →
      (rows.foldl (fun (hs : Hashor × List Dbl) row => (updEvent hs.1 row.prod row.decay (readRow addr row hs.2), readRow addr row hs.2)) (h, slots)).1 =
        h ++ rows.flatMap eventBytes := by
    intro rows
    induction rows with
    | nil => intro h slots _ _; simp
    | cons r rows ih =>
      intro h slots hs hr
      have hrr : readRow addr r slots = r.vals := by
        rw [readRow_spec (cols := t.cols) (names := m.addNames) (by rw [hw.cols]; exact fun n hn => hn) h2 r (by rw [hw.cols]; exact hr r List.mem_cons_self) slots hs,
          hw.cols, select_self hg.1 _ (hr r List.mem_cons_self)]
      rw [List.foldl_cons]
      dsimp only
      rw [hrr, ih _ _ (hr r List.mem_cons_self) (fun r' hr' => hr r' (List.mem_cons_of_mem _ hr')), updEvent_eq]
      simp
  exact congrArg some (key t.rows h _ (by simp) hw.len)

variable (md5 : List UInt8 → String)

/-- recalculating the hash of a well-formed file hashes its events in order. -/
theorem recalculateHash_spec {m : EventMeta} {t : Tree} (hw : WellFormed m t) (hg : GoodNames m.addNames) :
    m.recalculateHash md5 = md5 (t.rows.flatMap eventBytes) := by
  unfold EventMeta.recalculateHash
  rw [updateHashor_spec hw hg]
  simp

/-! ### C37: events -/

/-- invariant of a writer. -/
structure WriterOk (w : EventWriter) : Prop where
  fresh : w.initialized = false → w.hashor = []
  file : w.initialized = true → ∃ t, WellFormed w.meta_ t ∧ w.hashor = t.rows.flatMap eventBytes ∧
    w.nProd = w.meta_.prodNames.length ∧ w.nDecay = w.meta_.decayNames.length ∧ w.nAdd = w.meta_.addNames.length ∧
    ∀ r ∈ t.rows, r.prod.length = w.meta_.prodNames.length ∧ r.decay.length = w.meta_.decayNames.length

/-- what a finished file satisfies. -/
def FileOk (m : EventMeta) : Prop := ∃ t, WellFormed m t ∧ m.contentHash = md5 (t.rows.flatMap eventBytes) ∧
  ∀ r ∈ t.rows, r.prod.length = m.prodNames.length ∧ r.decay.length = m.decayNames.length

theorem writerStep_ok {s s' : EventWriter × List EventMeta} (h : WriterOk s.1) (hf : ∀ m ∈ s.2, FileOk md5 m) (o : WriterOp)
    (hs : writerStep md5 s o = .ok s') : WriterOk s'.1 ∧ ∀ m ∈ s'.2, FileOk md5 m := by
  obtain ⟨w, fs⟩ := s
  cases o with
  | start a =>
    obtain rfl := Outcome.ok.inj hs
    refine ⟨?_, hf⟩
    unfold EventWriter.initialize
    by_cases hi : w.initialized = true
    · rw [if_pos hi]; exact h
    · rw [if_neg hi]
      constructor
      · intro hc; simp at hc
      · intro _
        refine ⟨⟨a.addNames, []⟩, ⟨rfl, rfl, by simp⟩, ?_, rfl, rfl, rfl, by simp⟩
        exact h.fresh (by simpa using hi)
  | addEvent p d v =>
    simp only [writerStep] at hs
    unfold EventWriter.addEvent at hs
    by_cases hi : w.initialized = true
    · obtain ⟨t, hw, hh, h1, h2, h3, h4⟩ := h.file hi
      rw [if_neg (by simp [hi])] at hs
      split_ifs at hs with g1 g2 g3
      · simp at hs
      · simp at hs
      · simp at hs
      · obtain rfl := Outcome.ok.inj hs
        refine ⟨?_, hf⟩
        constructor
        · intro hc; simp only at hc; rw [hi] at hc; simp at hc
        · intro _
          push Not at g1 g2 g3
          refine ⟨{ t with rows := t.rows ++ [⟨p, d, v⟩] }, ⟨?_, hw.cols, ?_⟩, ?_, h1, h2, h3, ?_⟩
          · show Option.map _ w.meta_.tree = _
            rw [show w.meta_.tree = some t from hw.tree]
            rfl
          · intro r hr
            rcases List.mem_append.1 hr with hr | hr
            · exact hw.len r hr
            · rw [List.mem_singleton.1 hr]
              show v.length = _
              rw [g3]; exact h3
          · dsimp only
            rw [updEvent_eq, hh]
            simp
          · intro r hr
            rcases List.mem_append.1 hr with hr | hr
            · exact h4 r hr
            · rw [List.mem_singleton.1 hr]
              exact ⟨g1.trans h1, g2.trans h2⟩
    · rw [if_pos (by simpa using hi)] at hs
      obtain rfl := Outcome.ok.inj hs
      exact ⟨h, hf⟩
  | finalize =>
    obtain rfl := Outcome.ok.inj hs
    unfold EventWriter.finalize
    by_cases hi : w.initialized = true
    · obtain ⟨t, hw, hh, h1, h2, h3, h4⟩ := h.file hi
      simp only [hi, Bool.not_true, Bool.false_eq_true, if_false]
      refine ⟨⟨fun _ => rfl, fun hc => by simp [EventWriter.reset] at hc⟩, ?_⟩
      intro m hm
      rcases List.mem_append.1 hm with hm | hm
      · exact hf m hm
      · have hm' : m = { w.meta_ with contentHash := md5 w.hashor } := by simpa using hm
        subst hm'
        exact ⟨t, ⟨hw.tree, hw.cols, hw.len⟩, by rw [← hh], h4⟩
    · rw [if_pos (by simpa using hi)]
      refine ⟨h, ?_⟩
      intro m hm
      exact hf m (by simpa using hm)
  | reset =>
    obtain rfl := Outcome.ok.inj hs
    exact ⟨⟨fun _ => rfl, fun hc => by simp [EventWriter.reset] at hc⟩, hf⟩

/-- **C37** for every history of calls of a writer (any number of files, failed calls, resets), the hash stored in a file it has finished is the
hash recalculated from the file, if the names of the additional variables are distinct. -/
theorem written_hash_valid (ops : List WriterOp) (w : EventWriter) (files : List EventMeta)
    (h : ops.foldlM (writerStep md5) (EventWriter.new, []) = .ok (w, files)) (m : EventMeta) (hm : m ∈ files) (hg : GoodNames m.addNames) :
    m.contentHash = m.recalculateHash md5 := by
  have key : ∀ (ops : List WriterOp) (s s' : EventWriter × List EventMeta), WriterOk s.1 → (∀ m ∈ s.2, FileOk md5 m) →
      ops.foldlM (writerStep md5) s = .ok s' → WriterOk s'.1 ∧ ∀ m ∈ s'.2, FileOk md5 m := by
    intro ops
    induction ops with
    | nil =>
      intro s s' h1 h2 h3
      obtain rfl := Outcome.ok.inj h3
      exact ⟨h1, h2⟩
    | cons o ops ih =>
      intro s s' h1 h2 h3
      rw [List.foldlM_cons] at h3
      cases hs : writerStep md5 s o with
      | ok s1 =>
        rw [hs] at h3
        obtain ⟨a, b⟩ := writerStep_ok md5 h1 h2 o hs
        exact ih s1 s' a b h3
      | terminate => rw [hs] at h3; simp at h3
      | ub => rw [hs] at h3; simp at h3
  have hinit : WriterOk EventWriter.new := ⟨fun _ => rfl, fun hc => by simp [EventWriter.new] at hc⟩
  obtain ⟨_, hfiles⟩ := key ops (EventWriter.new, []) (w, files) hinit (by simp) h
  obtain ⟨t, hw, hh, _⟩ := hfiles m hm
  rw [recalculateHash_spec md5 hw hg, hh]

theorem addEvents_ok (evs : List Row) (w : EventWriter) (t : Tree) (files : List EventMeta) (hi : w.initialized = true) (ht : w.meta_.tree = some t)
    (he : ∀ e ∈ evs, e.prod.length = w.nProd ∧ e.decay.length = w.nDecay ∧ e.vals.length = w.nAdd) :
    (evs.map fun e => WriterOp.addEvent e.prod e.decay e.vals).foldlM (writerStep md5) (w, files) =
      .ok ({ w with hashor := w.hashor ++ evs.flatMap eventBytes, meta_ := { w.meta_ with tree := some { t with rows := t.rows ++ evs } } }, files) := by
  induction evs generalizing w t with
  | nil => simp [ht]; rw [← ht]
  | cons e evs ih =>
    rw [List.map_cons, List.foldlM_cons]
    obtain ⟨h1, h2, h3⟩ := he e List.mem_cons_self
    have hstep : writerStep md5 (w, files) (WriterOp.addEvent e.prod e.decay e.vals) =
        .ok ({ w with hashor := updEvent w.hashor e.prod e.decay e.vals,
                      meta_ := { w.meta_ with tree := some { t with rows := t.rows ++ [e] } } }, files) := by
      simp only [writerStep, EventWriter.addEvent]
      rw [if_neg (by simp [hi]), if_neg (by simpa using h1), if_neg (by simpa using h2), if_neg (by simpa using h3), ht]
      rfl
    rw [hstep]
    refine (ih { w with hashor := updEvent w.hashor e.prod e.decay e.vals, meta_ := { w.meta_ with tree := some { t with rows := t.rows ++ [e] } } }
      { t with rows := t.rows ++ [e] } hi rfl (fun e' he' => he e' (List.mem_cons_of_mem _ he'))).trans ?_
    rw [updEvent_eq]
    simp

/-- **C37** a file contains exactly the events added between `initialize` and `finalize`, in order, whatever was done with the writer before. -/
theorem written_content (w : EventWriter) (files : List EventMeta) (hi : w.initialized = false) (a : InitArgs) (evs : List Row)
    (he : ∀ e ∈ evs, e.prod.length = a.prodNames.length ∧ e.decay.length = a.decayNames.length ∧ e.vals.length = a.addNames.length) :
    ∃ w' m, ([WriterOp.start a] ++ (evs.map fun e : Row => WriterOp.addEvent e.prod e.decay e.vals) ++ [WriterOp.finalize]).foldlM (writerStep md5) (w, files) = .ok (w', files ++ [m]) ∧
      w'.initialized = false ∧ m.tree = some ⟨a.addNames, evs⟩ ∧ m.prodNames = a.prodNames ∧ m.decayNames = a.decayNames ∧ m.addNames = a.addNames ∧
      m.eventsType = a.eventsType ∧ m.bounds = a.bounds ∧ m.auxString = a.auxString := by
  rw [List.foldlM_append, List.foldlM_append]
  have h1 : [WriterOp.start a].foldlM (writerStep md5) (w, files) = .ok ((w.initialize a).2, files) := rfl
  rw [h1]
  have hw : (w.initialize a).2 = { w with
      initialized := true
      meta_ := { w.meta_ with
        auxString := a.auxString, eventsType := a.eventsType, prodNames := a.prodNames, decayNames := a.decayNames,
        bounds := a.bounds, addNames := a.addNames, tree := some ⟨a.addNames, []⟩ }
      nProd := a.prodNames.length
      nDecay := a.decayNames.length
      nAdd := a.addNames.length } := by
    unfold EventWriter.initialize
    rw [if_neg (by simp [hi])]
  rw [hw]
  simp only [Outcome.ok_bind]
  have := addEvents_ok md5 evs { w with
      initialized := true
      meta_ := { w.meta_ with
        auxString := a.auxString, eventsType := a.eventsType, prodNames := a.prodNames, decayNames := a.decayNames,
        bounds := a.bounds, addNames := a.addNames, tree := some ⟨a.addNames, []⟩ }
      nProd := a.prodNames.length
      nDecay := a.decayNames.length
      nAdd := a.addNames.length } ⟨a.addNames, []⟩ files rfl rfl he
  rw [this]
  exact ⟨_, _, rfl, rfl, rfl, rfl, rfl, rfl, rfl, rfl, rfl⟩

/-! ### the hash depends on exactly the content -/

/-- concatenated codes of a fixed positive length can be separated. -/
theorem flatMap_inj {α : Type} (f : α → List UInt8) (n : ℕ) (hn : 0 < n) (P : α → Prop) (hf : ∀ a, P a → (f a).length = n)
    (hinj : ∀ a b, P a → P b → f a = f b → a = b) (l l' : List α) (hl : ∀ a ∈ l, P a) (hl' : ∀ a ∈ l', P a) (h : l.flatMap f = l'.flatMap f) : l = l' := by
  induction l generalizing l' with
  | nil =>
    cases l' with
    | nil => rfl
    | cons b l' =>
      have := congrArg List.length h
      simp [hf b (hl' b List.mem_cons_self)] at this
      omega
  | cons a l ih =>
    cases l' with
    | nil =>
      have := congrArg List.length h
      simp [hf a (hl a List.mem_cons_self)] at this
      omega
    | cons b l' =>
      rw [List.flatMap_cons, List.flatMap_cons] at h
      obtain ⟨h1, h2⟩ := List.append_inj h ((hf a (hl a List.mem_cons_self)).trans (hf b (hl' b List.mem_cons_self)).symm)
      rw [hinj a b (hl a List.mem_cons_self) (hl' b List.mem_cons_self) h1,
        ih l' (fun x hx => hl x (List.mem_cons_of_mem _ hx)) (fun x hx => hl' x (List.mem_cons_of_mem _ hx)) h2]

theorem dbl_inj : ∀ a b : Dbl, True → True → List.ofFn a = List.ofFn b → a = b := fun _ _ _ _ h => List.ofFn_injective h

theorem vecBytes_length (v : Vec3) : (vecBytes v).length = 24 := by simp [vecBytes]

theorem vecBytes_inj : ∀ a b : Vec3, True → True → vecBytes a = vecBytes b → a = b := by
  intro a b _ _ h
  unfold vecBytes at h
  obtain ⟨h1, h2⟩ := List.append_inj h (by simp)
  obtain ⟨h3, h4⟩ := List.append_inj h1 (by simp)
  cases a
  cases b
  simp only at h2 h3 h4
  rw [List.ofFn_injective h2, List.ofFn_injective h3, List.ofFn_injective h4]

theorem vecs_length (l : List Vec3) : (l.flatMap vecBytes).length = 24 * l.length := by
  induction l with
  | nil => rfl
  | cons v l ih => rw [List.flatMap_cons, List.length_append, ih, vecBytes_length, List.length_cons]; ring

theorem dbls_length (l : List Dbl) : (l.flatMap fun v => List.ofFn v).length = 8 * l.length := by
  induction l with
  | nil => rfl
  | cons v l ih => rw [List.flatMap_cons, List.length_append, ih, List.length_ofFn, List.length_cons]; ring

/-- shape of the events of a file. -/
def Shape (p d a : ℕ) (r : Row) : Prop := r.prod.length = p ∧ r.decay.length = d ∧ r.vals.length = a

theorem eventBytes_length {p d a : ℕ} {r : Row} (h : Shape p d a r) : (eventBytes r).length = 24 * p + 24 * d + 8 * a := by
  unfold eventBytes
  rw [List.length_append, List.length_append, vecs_length, vecs_length, dbls_length, h.1, h.2.1, h.2.2]

theorem eventBytes_inj {p d a : ℕ} (r r' : Row) (h : Shape p d a r) (h' : Shape p d a r') (he : eventBytes r = eventBytes r') : r = r' := by
  unfold eventBytes at he
  obtain ⟨h1, h2⟩ := List.append_inj he (by rw [List.length_append, List.length_append, vecs_length, vecs_length, vecs_length, vecs_length, h.1, h.2.1, h'.1, h'.2.1])
  obtain ⟨h3, h4⟩ := List.append_inj h1 (by rw [vecs_length, vecs_length, h.1, h'.1])
  have e1 := flatMap_inj vecBytes 24 (by norm_num) (fun _ => True) (fun v _ => vecBytes_length v) vecBytes_inj _ _ (by simp) (by simp) h3
  have e2 := flatMap_inj vecBytes 24 (by norm_num) (fun _ => True) (fun v _ => vecBytes_length v) vecBytes_inj _ _ (by simp) (by simp) h4
  have e3 := flatMap_inj (fun v : Dbl => List.ofFn v) 8 (by norm_num) (fun _ => True) (fun v _ => by simp) dbl_inj _ _ (by simp) (by simp) h2
  cases r
  cases r'
  simp only at e1 e2 e3
  rw [e1, e2, e3]

/-- **C37** two files with events of the same shape, with at least one particle or variable, have the same hash if and only if they contain the
same events in the same order — unless MD5 has a collision. -/
theorem hash_identifies_events {m m' : EventMeta} {t t' : Tree} (hw : WellFormed m t) (hw' : WellFormed m' t') (hg : GoodNames m.addNames) (hg' : GoodNames m'.addNames)
    {p d a : ℕ} (hpos : 0 < p + d + a) (hs : ∀ r ∈ t.rows, Shape p d a r) (hs' : ∀ r ∈ t'.rows, Shape p d a r)
    (hmd5 : ∀ b b', md5 b = md5 b' → b = b') : m.recalculateHash md5 = m'.recalculateHash md5 ↔ t.rows = t'.rows := by
  rw [recalculateHash_spec md5 hw hg, recalculateHash_spec md5 hw' hg']
  constructor
  · intro h
    exact flatMap_inj eventBytes (24 * p + 24 * d + 8 * a) (by omega) (Shape p d a) (fun r hr => eventBytes_length hr)
      (fun r r' hr hr' => eventBytes_inj r r' hr hr') _ _ hs hs' (hmd5 _ _ h)
  · intro h; rw [h]

/-- the particle numbers are not part of the hash: a momentum of the production can be moved to the decay. -/
theorem layout_not_hashed (u v : Vec3) : eventBytes ⟨[u, v], [], []⟩ = eventBytes ⟨[u], [v], []⟩ := by simp [eventBytes]

/-- with a name of an additional variable used twice, the recalculated hash is not the stored one (`x` is not 0). -/
theorem duplicate_names_break_hash (hmd5 : ∀ b b', md5 b = md5 b' → b = b') (x y : Dbl) (hx : x ≠ Dbl.zero) :
    ∃ w m, [WriterOp.start ⟨"", .real, [], [], fun _ => none, ["m", "m"]⟩, .addEvent [] [] [x, y], .finalize].foldlM (writerStep md5) (EventWriter.new, []) = .ok (w, [m]) ∧
      m.contentHash ≠ m.recalculateHash md5 := by
  refine ⟨_, _, rfl, ?_⟩
  show md5 (updEvent [] [] [] [x, y]) ≠ md5 (updEvent [] [] [] [Dbl.zero, x])
  intro h
  have h2 := hmd5 _ _ h
  rw [updEvent_eq, updEvent_eq] at h2
  simp only [List.nil_append] at h2
  have := eventBytes_inj (p := 0) (d := 0) (a := 2) _ _ ⟨rfl, rfl, rfl⟩ ⟨rfl, rfl, rfl⟩ h2
  have h3 : [x, y] = [Dbl.zero, x] := congrArg Row.vals this
  exact hx (List.cons.inj h3).1

/-! ### C37: amplitudes -/

/-- invariant of an amplitude writer. -/
structure AmpOk (w : AmpWriter) : Prop where
  fresh : w.initialized = false → w.hashor = []
  file : w.initialized = true → ∃ as, w.meta_.tree = some as ∧
    w.hashor = (w.meta_.eventMeta.flatMap fun e => e.contentHash.toUTF8.data.toList) ++ w.meta_.keyfileContent.toUTF8.data.toList ++ as.flatMap ampBytes

/-- recalculated hash of amplitudes. -/
theorem amp_recalculateHash {m : AmpMeta} {as : List (Dbl × Dbl)} (h : m.tree = some as) :
    m.recalculateHash md5 = md5 ((m.eventMeta.flatMap fun e => e.contentHash.toUTF8.data.toList) ++ m.keyfileContent.toUTF8.data.toList ++ as.flatMap ampBytes) := by
  unfold AmpMeta.recalculateHash
  rw [h]
  simp only
  rw [foldl_updComplex, foldl_updString]
  simp [updString]

theorem addAmplitude_ok {w : AmpWriter} (h : AmpOk w) (a : Dbl × Dbl) : AmpOk (w.addAmplitude a) := by
  unfold AmpWriter.addAmplitude
  by_cases hi : w.initialized = true
  · rw [if_neg (by simp [hi])]
    obtain ⟨as, h1, h2⟩ := h.file hi
    constructor
    · intro hc; simp only at hc; rw [hi] at hc; simp at hc
    · intro _
      refine ⟨as ++ [a], by simp [h1], ?_⟩
      simp [updComplex, updDbl, h2, ampBytes]
  · rw [if_pos (by simpa using hi)]
    exact h

theorem ampStep_ok {s : AmpWriter × List AmpMeta} (h : AmpOk s.1) (hf : ∀ m ∈ s.2, (∃ as, m.tree = some as) ∧ m.contentHash = m.recalculateHash md5) (o : AmpOp) :
    AmpOk (ampStep md5 s o).1 ∧ ∀ m ∈ (ampStep md5 s o).2, (∃ as, m.tree = some as) ∧ m.contentHash = m.recalculateHash md5 := by
  obtain ⟨w, fs⟩ := s
  cases o with
  | start e k b g =>
    refine ⟨?_, hf⟩
    show AmpOk (w.initialize e k b g).2
    unfold AmpWriter.initialize
    by_cases hi : w.initialized = true
    · rw [if_pos hi]; exact h
    · rw [if_neg hi]
      constructor
      · intro hc; simp at hc
      · intro _
        refine ⟨[], rfl, ?_⟩
        have := h.fresh (by simpa using hi)
        simp only at this
        simp [foldl_updString, updString, this, List.flatMap_def]
  | addAmplitude a => exact ⟨addAmplitude_ok h a, hf⟩
  | addAmplitudes as =>
    refine ⟨?_, hf⟩
    show AmpOk (as.foldl AmpWriter.addAmplitude w)
    have hw : AmpOk w := h
    clear h
    induction as generalizing w with
    | nil => exact hw
    | cons a as ih => exact ih (w.addAmplitude a) hf (addAmplitude_ok hw a)
  | finalize =>
    show AmpOk (w.finalize md5).2 ∧ ∀ m ∈ fs ++ (w.finalize md5).1.toList, _
    unfold AmpWriter.finalize
    by_cases hi : w.initialized = true
    · obtain ⟨as, h1, h2⟩ := h.file hi
      simp only [hi, Bool.not_true, Bool.false_eq_true, if_false]
      refine ⟨⟨fun _ => rfl, fun hc => by simp [AmpWriter.reset] at hc⟩, ?_⟩
      intro m hm
      rcases List.mem_append.1 hm with hm | hm
      · exact hf m hm
      · have hm' : m = { w.meta_ with contentHash := md5 w.hashor } := by simpa using hm
        subst hm'
        refine ⟨⟨as, h1⟩, ?_⟩
        refine Eq.trans ?_ (amp_recalculateHash md5 (m := { w.meta_ with contentHash := md5 w.hashor }) (as := as) h1).symm
        exact congrArg md5 h2
    · rw [if_pos (by simpa using hi)]
      exact ⟨h, fun m hm => hf m (by simpa using hm)⟩
  | reset => exact ⟨⟨fun _ => rfl, fun hc => by simp [ampStep, AmpWriter.reset] at hc⟩, hf⟩

/-- **C37** for every history of calls of an amplitude writer, the hash stored with an object it has finished is the recalculated one. -/
theorem amp_written_hash_valid (ops : List AmpOp) (m : AmpMeta) (hm : m ∈ (ops.foldl (ampStep md5) (AmpWriter.new, [])).2) :
    m.contentHash = m.recalculateHash md5 := by
  have key : ∀ (ops : List AmpOp) (s : AmpWriter × List AmpMeta), AmpOk s.1 → (∀ m ∈ s.2, (∃ as, m.tree = some as) ∧ m.contentHash = m.recalculateHash md5) →
      ∀ m ∈ (ops.foldl (ampStep md5) s).2, (∃ as, m.tree = some as) ∧ m.contentHash = m.recalculateHash md5 := by
    intro ops
    induction ops with
    | nil => intro s _ h2; exact h2
    | cons o ops ih =>
      intro s h1 h2
      rw [List.foldl_cons]
      obtain ⟨a, b⟩ := ampStep_ok md5 h1 h2 o
      exact ih _ a b
  exact (key ops _ ⟨fun _ => rfl, fun hc => by simp [AmpWriter.new] at hc⟩ (by simp) m hm).2

/-- **C37** an amplitude object contains exactly the amplitudes added since `initialize`. -/
theorem amp_written_content (w : AmpWriter) (files : List AmpMeta) (hi : w.initialized = false) (e : List EventMeta) (k b g : String) (as : List (Dbl × Dbl)) :
    ∃ w' m, ([AmpOp.start e k b g] ++ as.map AmpOp.addAmplitude ++ [AmpOp.finalize]).foldl (ampStep md5) (w, files) = (w', files ++ [m]) ∧
      w'.initialized = false ∧ m.tree = some as ∧ m.eventMeta = e ∧ m.keyfileContent = k ∧ m.objectBaseName = b := by
  rw [List.foldl_append, List.foldl_append]
  have h1 : [AmpOp.start e k b g].foldl (ampStep md5) (w, files) = ((w.initialize e k b g).2, files) := rfl
  rw [h1]
  have key : ∀ (as : List (Dbl × Dbl)) (w : AmpWriter) (as₀ : List (Dbl × Dbl)), w.initialized = true → w.meta_.tree = some as₀ →
      ∃ w', (as.map AmpOp.addAmplitude).foldl (ampStep md5) (w, files) = (w', files) ∧ w'.initialized = true ∧ w'.meta_.tree = some (as₀ ++ as) ∧
        w'.meta_.eventMeta = w.meta_.eventMeta ∧ w'.meta_.keyfileContent = w.meta_.keyfileContent ∧ w'.meta_.objectBaseName = w.meta_.objectBaseName := by
    intro as
    induction as with
    | nil => intro w as₀ hi ht; exact ⟨w, rfl, hi, by simpa using ht, rfl, rfl, rfl⟩
    | cons a as ih =>
      intro w as₀ hi ht
      have hstep : w.addAmplitude a = { w with hashor := updComplex w.hashor a, meta_ := { w.meta_ with tree := some (as₀ ++ [a]) } } := by
        unfold AmpWriter.addAmplitude
        rw [if_neg (by simp [hi]), ht]
        rfl
      obtain ⟨w', e1, e2, e3, e4, e5, e6⟩ := ih (w.addAmplitude a) (as₀ ++ [a]) (by rw [hstep]; exact hi) (by rw [hstep])
      refine ⟨w', e1, e2, by rw [e3]; simp, ?_, ?_, ?_⟩
      · rw [e4, hstep]
      · rw [e5, hstep]
      · rw [e6, hstep]
  have hw : (w.initialize e k b g).2.initialized = true ∧ (w.initialize e k b g).2.meta_.tree = some [] ∧ (w.initialize e k b g).2.meta_.eventMeta = e ∧
      (w.initialize e k b g).2.meta_.keyfileContent = k ∧ (w.initialize e k b g).2.meta_.objectBaseName = b := by
    unfold AmpWriter.initialize
    rw [if_neg (by simp [hi])]
    exact ⟨rfl, rfl, rfl, rfl, rfl⟩
  obtain ⟨g1, g2, g3, g4, g5⟩ := hw
  obtain ⟨w', e1, e2, e3, e4, e5, e6⟩ := key as _ [] g1 g2
  rw [e1]
  have hfin : [AmpOp.finalize].foldl (ampStep md5) (w', files) = (AmpWriter.reset { w' with meta_ := { w'.meta_ with contentHash := md5 w'.hashor } }, files ++ [{ w'.meta_ with contentHash := md5 w'.hashor }]) := by
    show ((w'.finalize md5).2, files ++ (w'.finalize md5).1.toList) = _
    unfold AmpWriter.finalize
    rw [if_neg (by simp [e2])]
    rfl
  rw [hfin]
  exact ⟨_, _, rfl, rfl, e3, e4.trans g3, e5.trans g4, e6.trans g5⟩

theorem ampBytes_inj : ∀ a b : Dbl × Dbl, True → True → ampBytes a = ampBytes b → a = b := by
  intro a b _ _ h
  unfold ampBytes at h
  obtain ⟨h1, h2⟩ := List.append_inj h (by simp)
  exact Prod.ext (List.ofFn_injective h1) (List.ofFn_injective h2)

/-- **C37** for the same event files and key file, equal hashes of amplitudes mean equal amplitudes in equal order (unless MD5 has a collision). -/
theorem hash_identifies_amplitudes_partial {m m' : AmpMeta} {as as' : List (Dbl × Dbl)} (ht : m.tree = some as) (ht' : m'.tree = some as')
    (he : m.eventMeta = m'.eventMeta) (hk : m.keyfileContent = m'.keyfileContent) (hmd5 : ∀ b b', md5 b = md5 b' → b = b') :
    m.recalculateHash md5 = m'.recalculateHash md5 ↔ as = as' := by
  rw [amp_recalculateHash md5 ht, amp_recalculateHash md5 ht', he, hk]
  constructor
  · intro h
    have h2 := List.append_cancel_left (hmd5 _ _ h)
    exact flatMap_inj ampBytes 16 (by norm_num) (fun _ => True) (fun a _ => by simp [ampBytes]) ampBytes_inj _ _ (by simp) (by simp) h2
  · intro h; rw [h]

end Rpwa.Storage

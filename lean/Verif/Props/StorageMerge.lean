import Verif.Props.Storage
/-!
# Merging event files (C38) -/
namespace Rpwa.Storage

/-! ### specification -/

/-- the rows of a tree, restricted to the additional variables `names`, in their order. -/
def project (names : List String) (m : EventMeta) : List Row :=
  match m.tree with
  | some t => t.rows.map fun r => ⟨r.prod, r.decay, select t.cols names r.vals⟩
  | none => []

/-- the files can be merged: what the documentation calls compatible. -/
structure Mergeable (mergeBinBoundaries mergeAuxValues : Bool) (first : EventMeta) (ms : List EventMeta) : Prop where
  tree : ∀ m ∈ ms, m.tree ≠ none
  prod : ∀ m ∈ ms, m.prodNames = first.prodNames
  decay : ∀ m ∈ ms, m.decayNames = first.decayNames
  bounds : mergeBinBoundaries = false → ∀ m ∈ ms, m.bounds = first.bounds
  vars : mergeBinBoundaries = true → ∀ m ∈ ms, ∀ v, first.bounds v ≠ none → m.bounds v ≠ none
  add : ∀ m ∈ ms, ∀ n ∈ first.addNames, ∀ t, m.tree = some t → n ∈ t.cols
  aux : mergeAuxValues = true → ∀ m ∈ ms, ∀ m' ∈ ms, ∀ v x y, m.auxValues v = some x → m'.auxValues v = some y → x = y

/-- `b` is the smallest range that contains those of all the files, for the variables of the first file. -/
structure IsHull (first : EventMeta) (ms : List EventMeta) (b : Bounds) : Prop where
  dom : ∀ v, b v ≠ none ↔ first.bounds v ≠ none
  covers : ∀ v lo hi, b v = some (lo, hi) → ∀ m ∈ ms, ∀ l h, m.bounds v = some (l, h) → lo ≤ l ∧ h ≤ hi
  least : ∀ v lo hi, b v = some (lo, hi) → (∃ m ∈ ms, ∃ h, m.bounds v = some (lo, h)) ∧ ∃ m ∈ ms, ∃ l, m.bounds v = some (l, hi)

/-- additional variables of every file: the file can be read. -/
def Readable (m : EventMeta) : Prop := ∀ t, m.tree = some t → WellFormed m t

/-! ### one input -/

theorem setAddresses_isSome {cols names : List String} {addr : ℕ → Option ℕ} (h : setAddresses cols names = some addr) : ∀ n ∈ names, n ∈ cols := by
  unfold setAddresses at h
  have key : ∀ (ns : List String) (k : ℕ) (a0 : ℕ → Option ℕ) (a : ℕ → Option ℕ),
      (ns.zipIdx k).foldlM (fun addr ni => (branchOf cols ni.1).map fun c => Function.update addr c (some ni.2)) a0 = some a → ∀ n ∈ ns, n ∈ cols := by
    intro ns
    induction ns with
    | nil => intro k a0 a _ n hn; simp at hn
    | cons n ns ih =>
      intro k a0 a ha x hx
      rw [List.zipIdx_cons, List.foldlM_cons] at ha
      dsimp only at ha
      cases hb : branchOf cols n with
      | none => rw [hb] at ha; simp at ha
      | some c =>
        rw [hb] at ha
        rcases List.mem_cons.1 hx with rfl | hx
        · unfold branchOf at hb
          split at hb
          · simp at hb
          · by_contra hc
            have : cols.idxOf? x = none := by simpa using hc
            rw [this] at hb
            simp at hb
        · exact ih _ _ _ ha x hx
  exact key names 0 _ addr h

/-- the loop over the events of one input. -/
theorem mergeRows_spec {m : EventMeta} {t : Tree} (hw : WellFormed m t) {names : List String} (hm : ∀ n ∈ names, n ∈ t.cols) {addr : ℕ → Option ℕ}
    (ha : ∀ c i, addr c = some i ↔ ∃ n, names[i]? = some n ∧ t.cols.idxOf n = c) (rows : List Row) (hr : ∀ r ∈ rows, r.vals.length = t.cols.length) (h : Hashor) (slots : List Dbl) (out : List Row)
    (hs : slots.length = names.length) :
    ∃ slots' : List Dbl, slots'.length = names.length ∧
      rows.foldl (fun (x : Hashor × List Dbl × List Row) row =>
        (updEvent x.1 row.prod row.decay (readRow addr row x.2.1), readRow addr row x.2.1, x.2.2 ++ [⟨row.prod, row.decay, readRow addr row x.2.1⟩])) (h, slots, out) =
      (h ++ (rows.map fun r => (⟨r.prod, r.decay, select t.cols names r.vals⟩ : Row)).flatMap eventBytes, slots',
        out ++ rows.map fun r => (⟨r.prod, r.decay, select t.cols names r.vals⟩ : Row)) := by
  induction rows generalizing h slots out with
  | nil => exact ⟨slots, hs, by simp⟩
  | cons r rows ih =>
    rw [List.foldl_cons]
    dsimp only
    rw [readRow_spec hm ha r (hr r List.mem_cons_self) slots hs]
    obtain ⟨s', h1, h2⟩ := ih (fun r' h' => hr r' (List.mem_cons_of_mem _ h')) (updEvent h r.prod r.decay (select t.cols names r.vals)) (select t.cols names r.vals)
      (out ++ [⟨r.prod, r.decay, select t.cols names r.vals⟩]) (by simp [select])
    refine ⟨s', h1, h2.trans ?_⟩
    rw [updEvent_eq]
    simp

/-- invariant of the loop over the inputs. -/
structure MergeInv (bin str aux : Bool) (first : EventMeta) (done : List EventMeta) (s : MergeState) : Prop where
  prod : s.mergee.prodNames = first.prodNames
  decay : s.mergee.decayNames = first.decayNames
  add : s.mergee.addNames = first.addNames
  ty : s.mergee.eventsType = .other
  auxString : s.mergee.auxString = if str then (done.map (·.auxString)).foldl appendAux "" else ""
  slots : s.slots.length = first.addNames.length
  rows : s.rows = done.flatMap (project first.addNames)
  hash : s.hashor = (done.flatMap (project first.addNames)).flatMap eventBytes
  bounds : bin = false → s.mergee.bounds = first.bounds
  hull : bin = true → IsHull first (first :: done) s.mergedBounds
  auxNone : aux = false → s.mergee.auxValues = fun _ => none
  auxValues : aux = true → ∀ v x, s.mergee.auxValues v = some x ↔ ∃ m ∈ done, m.auxValues v = some x

/-- the conditions of one input. -/
structure StepOk (bin aux : Bool) (first : EventMeta) (done : List EventMeta) (m : EventMeta) : Prop where
  tree : m.tree ≠ none
  prod : m.prodNames = first.prodNames
  decay : m.decayNames = first.decayNames
  bounds : bin = false → m.bounds = first.bounds
  vars : bin = true → ∀ v, first.bounds v ≠ none → m.bounds v ≠ none
  add : ∀ n ∈ first.addNames, ∀ t, m.tree = some t → n ∈ t.cols
  aux : aux = true → ∀ m' ∈ done, ∀ v x y, m'.auxValues v = some x → m.auxValues v = some y → x = y

theorem mergeBounds_hull {first m : EventMeta} {done : List EventMeta} {b : Bounds} (h : IsHull first (first :: done) b)
    (hv : ∀ v, first.bounds v ≠ none → m.bounds v ≠ none) :
    ∃ b', mergeBounds b m.bounds = some b' ∧ IsHull first (first :: (done ++ [m])) b' := by
  unfold mergeBounds
  rw [if_neg (by
    rintro ⟨v, r, h1, h2⟩
    exact hv v ((h.dom v).1 (by rw [h1]; simp)) h2)]
  refine ⟨_, rfl, ⟨?_, ?_, ?_⟩⟩
  · intro v
    rw [← h.dom v]
    cases hb : b v with
    | none => simp
    | some r =>
      cases ho : m.bounds v <;> simp
  · intro v lo hi hb m' hm' l u hl
    cases hbv : b v with
    | none => rw [hbv] at hb; simp at hb
    | some r =>
      cases hmv : m.bounds v with
      | none => exact absurd hmv (hv v ((h.dom v).1 (by rw [hbv]; simp)))
      | some o =>
        rw [hbv, hmv] at hb
        simp only [Option.some.injEq, Prod.mk.injEq] at hb
        obtain ⟨h1, h2⟩ := hb
        subst h1; subst h2
        rcases List.mem_cons.1 hm' with hm' | hm'
        · obtain ⟨a, c⟩ := h.covers v r.1 r.2 hbv m' (by rw [hm']; exact List.mem_cons_self) l u hl
          constructor <;> split <;> linarith
        · rcases List.mem_append.1 hm' with hm' | hm'
          · obtain ⟨a, c⟩ := h.covers v r.1 r.2 hbv m' (List.mem_cons_of_mem _ hm') l u hl
            constructor <;> split <;> linarith
          · rw [List.mem_singleton] at hm'
            subst hm'
            rw [hmv] at hl
            have : o = (l, u) := Option.some.inj hl
            subst this
            dsimp only
            constructor <;> split <;> linarith
  · intro v lo hi hb
    cases hbv : b v with
    | none => rw [hbv] at hb; simp at hb
    | some r =>
      cases hmv : m.bounds v with
      | none => exact absurd hmv (hv v ((h.dom v).1 (by rw [hbv]; simp)))
      | some o =>
        rw [hbv, hmv] at hb
        simp only [Option.some.injEq, Prod.mk.injEq] at hb
        obtain ⟨h1, h2⟩ := hb
        subst h1; subst h2
        obtain ⟨⟨ma, ha1, ha2⟩, ⟨mc, hc1, hc2⟩⟩ := h.least v r.1 r.2 hbv
        have mono : ∀ x ∈ first :: done, x ∈ first :: (done ++ [m]) := by
          intro x hx
          rcases List.mem_cons.1 hx with hx | hx
          · rw [hx]; exact List.mem_cons_self
          · exact List.mem_cons_of_mem _ (List.mem_append_left _ hx)
        have mm : m ∈ first :: (done ++ [m]) := List.mem_cons_of_mem _ (List.mem_append_right _ (List.mem_singleton.2 rfl))
        constructor
        · split
          · exact ⟨m, mm, o.2, hmv⟩
          · exact ⟨ma, mono _ ha1, ha2⟩
        · split
          · exact ⟨m, mm, o.1, hmv⟩
          · exact ⟨mc, mono _ hc1, hc2⟩

theorem mergeStep_ok {bin str aux : Bool} {first m : EventMeta} {done : List EventMeta} {s : MergeState} (hg : GoodNames first.addNames) (hi : MergeInv bin str aux first done s)
    (hm : Readable m) (ho : StepOk bin aux first done m) :
    ∃ s', mergeStep bin str aux s m = some s' ∧ MergeInv bin str aux first (done ++ [m]) s' := by
  obtain ⟨t, ht⟩ := Option.ne_none_iff_exists'.1 ho.tree
  have hw := hm t ht
  obtain ⟨addr, ha1, ha2⟩ := setAddresses_spec t.cols first.addNames hg.1 hg.2 (fun n hn => ho.add n hn t ht)
  have hb : ∃ mb, boundsStep bin s.mergee.bounds s.mergedBounds m.bounds = some mb ∧
      (bin = true → IsHull first (first :: (done ++ [m])) mb) := by
    cases bin with
    | false =>
      refine ⟨s.mergedBounds, ?_, by simp⟩
      unfold boundsStep
      rw [if_pos (by rfl), if_neg (not_not.2 ((hi.bounds rfl).trans (ho.bounds rfl).symm))]
    | true =>
      obtain ⟨b', h1, h2⟩ := mergeBounds_hull (hi.hull rfl) (ho.vars rfl)
      exact ⟨b', h1, fun _ => h2⟩
  obtain ⟨mb, hb1, hb2⟩ := hb
  have hx : ∃ av, (if aux then mergeAux s.mergee.auxValues m.auxValues else some s.mergee.auxValues) = some av ∧
      (aux = false → av = fun _ => none) ∧ (aux = true → ∀ v x, av v = some x ↔ ∃ m' ∈ done ++ [m], m'.auxValues v = some x) := by
    cases aux with
    | false => exact ⟨_, rfl, fun _ => hi.auxNone rfl, by simp⟩
    | true =>
      rw [if_pos rfl]
      unfold mergeAux
      rw [if_neg (by
        rintro ⟨v, x, y, h1, h2, h3⟩
        obtain ⟨m', hm', hx'⟩ := (hi.auxValues rfl v x).1 h1
        exact h3 (ho.aux rfl m' hm' v x y hx' h2))]
      refine ⟨_, rfl, by simp, fun _ v x => ?_⟩
      cases hs : s.mergee.auxValues v with
      | none =>
        dsimp only
        constructor
        · intro h; exact ⟨m, by simp, h⟩
        · rintro ⟨m', hm', h⟩
          rcases List.mem_append.1 hm' with hm' | hm'
          · have := (hi.auxValues rfl v x).2 ⟨m', hm', h⟩
            rw [hs] at this; simp at this
          · rw [List.mem_singleton] at hm'; rw [← hm']; exact h
      | some x0 =>
        obtain ⟨m0, hm0, hx0⟩ := (hi.auxValues rfl v x0).1 hs
        dsimp only
        constructor
        · intro h; exact ⟨m0, List.mem_append_left _ hm0, by rw [hx0]; exact h⟩
        · rintro ⟨m', hm', h⟩
          rcases List.mem_append.1 hm' with hm' | hm'
          · have := (hi.auxValues rfl v x).2 ⟨m', hm', h⟩
            rw [hs] at this; exact this
          · rw [List.mem_singleton] at hm'
            subst hm'
            rw [ho.aux rfl m0 hm0 v x0 x hx0 h]
  obtain ⟨av, hx1, hx2, hx3⟩ := hx
  obtain ⟨sl, hsl, hrows⟩ := mergeRows_spec hw (fun n hn => ho.add n hn t ht) ha2 t.rows (fun r hr => by rw [hw.len r hr, hw.cols]) s.hashor s.slots s.rows hi.slots
  have hp : project first.addNames m = t.rows.map fun r => (⟨r.prod, r.decay, select t.cols first.addNames r.vals⟩ : Row) := by
    unfold project; rw [ht]
  have hstep : mergeStep bin str aux s m = some
      { mergee := { (if str then { s with mergee := { s.mergee with auxString := appendAux s.mergee.auxString m.auxString } } else s).mergee with auxValues := av }
        mergedBounds := mb
        hashor := s.hashor ++ (project first.addNames m).flatMap eventBytes
        slots := sl
        rows := s.rows ++ project first.addNames m } := by
    unfold mergeStep
    cases str with
    | false =>
      simp only [ht, Option.bind_eq_bind, Option.bind_some, Bool.false_eq_true, if_false]
      rw [if_neg (not_not.2 (hi.prod.trans ho.prod.symm)), if_neg (not_not.2 (hi.decay.trans ho.decay.symm)), hb1]
      simp only [Option.bind_some, hi.add, ha1, hrows, hx1, ← hp]
      rfl
    | true =>
      simp only [ht, Option.bind_eq_bind, Option.bind_some, if_true]
      rw [if_neg (not_not.2 (hi.prod.trans ho.prod.symm)), if_neg (not_not.2 (hi.decay.trans ho.decay.symm)), hb1]
      simp only [Option.bind_some, hi.add, ha1, hrows, hx1, ← hp]
      rfl
  refine ⟨_, hstep, ?_⟩
  constructor
  · cases str <;> exact hi.prod
  · cases str <;> exact hi.decay
  · cases str <;> exact hi.add
  · cases str <;> exact hi.ty
  · cases str with
    | false => exact hi.auxString
    | true =>
      have := hi.auxString
      simp only [if_true] at this ⊢
      rw [List.map_append, List.foldl_append, ← this]
      rfl
  · exact hsl
  · simp [hi.rows]
  · simp [hi.hash]
  · intro h; cases str <;> exact hi.bounds h
  · exact hb2
  · intro h; exact hx2 h
  · intro h; exact hx3 h

theorem mergeStep_some {bin str aux : Bool} {first m : EventMeta} {done : List EventMeta} {s s' : MergeState} (hi : MergeInv bin str aux first done s)
    (h : mergeStep bin str aux s m = some s') : StepOk bin aux first done m := by
  unfold mergeStep at h
  cases ht : m.tree with
  | none => simp [ht] at h
  | some t =>
    have e1 : (if str then { s with mergee := { s.mergee with auxString := appendAux s.mergee.auxString m.auxString } } else s).mergee.prodNames = first.prodNames := by
      cases str <;> exact hi.prod
    have e2 : (if str then { s with mergee := { s.mergee with auxString := appendAux s.mergee.auxString m.auxString } } else s).mergee.decayNames = first.decayNames := by
      cases str <;> exact hi.decay
    have e3 : (if str then { s with mergee := { s.mergee with auxString := appendAux s.mergee.auxString m.auxString } } else s).mergee.addNames = first.addNames := by
      cases str <;> exact hi.add
    have e4 : (if str then { s with mergee := { s.mergee with auxString := appendAux s.mergee.auxString m.auxString } } else s).mergee.bounds = s.mergee.bounds := by
      cases str <;> rfl
    have e5 : (if str then { s with mergee := { s.mergee with auxString := appendAux s.mergee.auxString m.auxString } } else s).mergedBounds = s.mergedBounds := by
      cases str <;> rfl
    have e6 : (if str then { s with mergee := { s.mergee with auxString := appendAux s.mergee.auxString m.auxString } } else s).mergee.auxValues = s.mergee.auxValues := by
      cases str <;> rfl
    simp only [ht, Option.bind_eq_bind, Option.bind_some, e1, e2, e3, e4, e5, e6] at h
    split at h
    · simp at h
    rename_i hp
    split at h
    · simp at h
    rename_i hd
    rw [Option.bind_eq_some_iff] at h
    obtain ⟨mb, hb, h⟩ := h
    rw [Option.bind_eq_some_iff] at h
    obtain ⟨addr, ha, h⟩ := h
    rw [Option.bind_eq_some_iff] at h
    obtain ⟨av, hav, h⟩ := h
    constructor
    · rw [ht]; simp
    · exact (not_not.1 hp).symm
    · exact (not_not.1 hd).symm
    · intro hbin
      unfold boundsStep at hb
      rw [hbin, Bool.not_false, if_pos rfl] at hb
      split at hb
      · simp at hb
      · rename_i hbb
        rw [← not_not.1 hbb]; exact hi.bounds hbin
    · intro hbin v hv hmv
      unfold boundsStep at hb
      rw [hbin, Bool.not_true, if_neg (by simp)] at hb
      unfold mergeBounds at hb
      split at hb
      · simp at hb
      · rename_i hbb
        obtain ⟨r, hr⟩ := Option.ne_none_iff_exists'.1 (((hi.hull hbin).dom v).2 hv)
        exact hbb ⟨v, r, hr, hmv⟩
    · intro n hn t' ht'
      rw [ht] at ht'
      rw [← Option.some.inj ht']
      exact setAddresses_isSome ha n hn
    · intro haux m' hm' v x y hx hy
      rw [haux, if_pos rfl] at hav
      unfold mergeAux at hav
      split at hav
      · simp at hav
      · rename_i hxx
        by_contra hne
        exact hxx ⟨v, x, y, (hi.auxValues haux v x).2 ⟨m', hm', hx⟩, hy, hne⟩

theorem mergeFirst_inv (bin str aux : Bool) (m : EventMeta) : MergeInv bin str aux m [] (mergeFirst bin m) := by
  constructor
  · rfl
  · rfl
  · rfl
  · rfl
  · cases str <;> rfl
  · simp [mergeFirst]
  · rfl
  · rfl
  · intro h; subst h; rfl
  · intro h
    subst h
    refine ⟨fun v => Iff.rfl, ?_, ?_⟩
    · intro v lo hi hb m' hm' l h hl
      rw [List.mem_singleton] at hm'
      subst hm'
      have hb' : m'.bounds v = some (lo, hi) := hb
      rw [hb'] at hl
      have := Option.some.inj hl
      rw [Prod.mk.injEq] at this
      exact ⟨this.1.le, this.2.ge⟩
    · intro v lo hi hb
      exact ⟨⟨m, List.mem_singleton.2 rfl, hi, hb⟩, ⟨m, List.mem_singleton.2 rfl, lo, hb⟩⟩
  · intro _; rfl
  · intro _ v x; simp [mergeFirst, EventMeta.default]

theorem mergeLoop_ok {bin str aux : Bool} {first : EventMeta} (hg : GoodNames first.addNames) (ms : List EventMeta) (hm : ∀ m ∈ ms, Readable m) (done : List EventMeta)
    (s : MergeState) (hi : MergeInv bin str aux first done s) (hok : Mergeable bin aux first (done ++ ms)) :
    ∃ s', ms.foldlM (mergeStep bin str aux) s = some s' ∧ MergeInv bin str aux first (done ++ ms) s' := by
  induction ms generalizing done s with
  | nil => exact ⟨s, rfl, by simpa using hi⟩
  | cons m ms ih =>
    have hmm : m ∈ done ++ m :: ms := by simp
    have ho : StepOk bin aux first done m :=
      ⟨hok.tree m hmm, hok.prod m hmm, hok.decay m hmm, fun h => hok.bounds h m hmm, fun h => hok.vars h m hmm, hok.add m hmm,
        fun h m' hm' v x y hx hy => hok.aux h m' (by simp [hm']) m hmm v x y hx hy⟩
    obtain ⟨s', h1, h2⟩ := mergeStep_ok hg hi (hm m List.mem_cons_self) ho
    obtain ⟨s'', h3, h4⟩ := ih (fun x hx => hm x (List.mem_cons_of_mem _ hx)) (done ++ [m]) s' h2 (by simpa using hok)
    refine ⟨s'', ?_, by simpa using h4⟩
    rw [List.foldlM_cons, h1]
    exact h3

theorem mergeLoop_some {bin str aux : Bool} {first : EventMeta} (hg : GoodNames first.addNames) (ms : List EventMeta) (hm : ∀ m ∈ ms, Readable m) (done : List EventMeta)
    (s s' : MergeState) (hi : MergeInv bin str aux first done s) (hd : Mergeable bin aux first done) (h : ms.foldlM (mergeStep bin str aux) s = some s') :
    Mergeable bin aux first (done ++ ms) := by
  induction ms generalizing done s with
  | nil => simpa using hd
  | cons m ms ih =>
    rw [List.foldlM_cons] at h
    cases hs : mergeStep bin str aux s m with
    | none => rw [hs] at h; simp at h
    | some s1 =>
      rw [hs] at h
      have ho := mergeStep_some hi hs
      obtain ⟨s2, h1, h2⟩ := mergeStep_ok hg hi (hm m List.mem_cons_self) ho
      rw [hs] at h1
      obtain rfl := Option.some.inj h1
      have hd' : Mergeable bin aux first (done ++ [m]) := by
        constructor
        · intro x hx; rcases List.mem_append.1 hx with hx | hx
          · exact hd.tree x hx
          · rw [List.mem_singleton] at hx; subst hx; exact ho.tree
        · intro x hx; rcases List.mem_append.1 hx with hx | hx
          · exact hd.prod x hx
          · rw [List.mem_singleton] at hx; subst hx; exact ho.prod
        · intro x hx; rcases List.mem_append.1 hx with hx | hx
          · exact hd.decay x hx
          · rw [List.mem_singleton] at hx; subst hx; exact ho.decay
        · intro hb x hx; rcases List.mem_append.1 hx with hx | hx
          · exact hd.bounds hb x hx
          · rw [List.mem_singleton] at hx; subst hx; exact ho.bounds hb
        · intro hb x hx; rcases List.mem_append.1 hx with hx | hx
          · exact hd.vars hb x hx
          · rw [List.mem_singleton] at hx; subst hx; exact ho.vars hb
        · intro x hx; rcases List.mem_append.1 hx with hx | hx
          · exact hd.add x hx
          · rw [List.mem_singleton] at hx; subst hx; exact ho.add
        · intro ha x hx y hy v a b hxa hyb
          rcases List.mem_append.1 hx with hx' | hx' <;> rcases List.mem_append.1 hy with hy' | hy'
          · exact hd.aux ha x hx' y hy' v a b hxa hyb
          · rw [List.mem_singleton] at hy'; subst hy'; exact ho.aux ha x hx' v a b hxa hyb
          · rw [List.mem_singleton] at hx'; subst hx'; exact (ho.aux ha y hy' v b a hyb hxa).symm
          · rw [List.mem_singleton] at hx' hy'; subst hx'; subst hy'
            rw [hxa] at hyb; exact Option.some.inj hyb
      have := ih (fun x hx => hm x (List.mem_cons_of_mem _ hx)) (done ++ [m]) s1 h2 hd' h
      simpa using this

theorem mergeable_nil (bin aux : Bool) (first : EventMeta) : Mergeable bin aux first [] := by
  constructor <;> simp

/-! ### C38 -/

variable (md5 : List UInt8 → String)

/-- **C38** merging without input is refused. -/
theorem merge_empty (bin str aux : Bool) : merge md5 bin str aux [] = none := rfl

/-- **C38** exactly incompatible files are refused. -/
theorem merge_refused_iff (bin str aux : Bool) (m : EventMeta) (ms : List EventMeta) (hg : GoodNames m.addNames) (hr : ∀ x ∈ m :: ms, Readable x) :
    merge md5 bin str aux (m :: ms) = none ↔ ¬ Mergeable bin aux m (m :: ms) := by
  rw [← not_iff_not, not_not]
  constructor
  · intro h
    dsimp only [merge] at h
    cases hs : (m :: ms).foldlM (mergeStep bin str aux) (mergeFirst bin m) with
    | none => rw [hs] at h; simp at h
    | some s => exact mergeLoop_some hg (m :: ms) hr [] _ s (mergeFirst_inv bin str aux m) (mergeable_nil _ _ _) hs
  · intro h
    obtain ⟨s', h1, h2⟩ := mergeLoop_ok (str := str) hg (m :: ms) hr [] _ (mergeFirst_inv bin str aux m) h
    dsimp only [merge]
    rw [h1]
    exact fun hc => Option.some_ne_none _ hc

/-- **C38** what a merged file contains. -/
theorem merge_concat (bin str aux : Bool) (m : EventMeta) (ms : List EventMeta) (hg : GoodNames m.addNames) (hr : ∀ x ∈ m :: ms, Readable x)
    (r : EventMeta) (h : merge md5 bin str aux (m :: ms) = some r) :
    r.tree = some ⟨m.addNames, (m :: ms).flatMap (project m.addNames)⟩ ∧
    r.prodNames = m.prodNames ∧ r.decayNames = m.decayNames ∧ r.addNames = m.addNames ∧
    r.contentHash = r.recalculateHash md5 ∧
    (bin = false → r.bounds = m.bounds) ∧
    (bin = true → IsHull m (m :: ms) r.bounds) ∧
    (aux = true → ∀ v x, r.auxValues v = some x ↔ ∃ f ∈ m :: ms, f.auxValues v = some x) ∧
    r.eventsType = .other := by
  dsimp only [merge] at h
  cases hs : (m :: ms).foldlM (mergeStep bin str aux) (mergeFirst bin m) with
  | none => rw [hs] at h; simp at h
  | some s =>
    have hok := mergeLoop_some hg (m :: ms) hr [] _ s (mergeFirst_inv bin str aux m) (mergeable_nil _ _ _) hs
    obtain ⟨s', h1, hi⟩ := mergeLoop_ok (str := str) hg (m :: ms) hr [] _ (mergeFirst_inv bin str aux m) hok
    rw [hs] at h1
    obtain rfl := Option.some.inj h1
    rw [hs] at h
    simp only [Option.bind_eq_bind, Option.bind_some, Option.pure_def, Option.some.injEq] at h
    subst h
    simp only [List.nil_append] at hi
    refine ⟨?_, hi.prod, hi.decay, hi.add, ?_, ?_, ?_, ?_, hi.ty⟩
    · show some (⟨s.mergee.addNames, s.rows⟩ : Tree) = _
      rw [hi.add, hi.rows]
    · have hw : WellFormed { s.mergee with bounds := if bin then s.mergedBounds else s.mergee.bounds, contentHash := md5 s.hashor, tree := some ⟨s.mergee.addNames, s.rows⟩ }
          ⟨s.mergee.addNames, s.rows⟩ := by
        refine ⟨rfl, rfl, ?_⟩
        intro x hx
        show x.vals.length = s.mergee.addNames.length
        rw [hi.add]
        have hx' : x ∈ (m :: ms).flatMap (project m.addNames) := by rw [← hi.rows]; exact hx
        obtain ⟨f, _, hf⟩ := List.mem_flatMap.1 hx'
        unfold project at hf
        split at hf
        · obtain ⟨y, _, rfl⟩ := List.mem_map.1 hf
          simp [select]
        · simp at hf
      refine Eq.trans ?_ (recalculateHash_spec md5 hw (by show GoodNames s.mergee.addNames; rw [hi.add]; exact hg)).symm
      show md5 s.hashor = md5 (s.rows.flatMap eventBytes)
      rw [hi.hash, hi.rows]
    · intro hb; subst hb; exact hi.bounds rfl
    · intro hb
      subst hb
      have := hi.hull rfl
      refine ⟨this.dom, fun v lo hh hv x hx => this.covers v lo hh hv x (List.mem_cons_of_mem _ hx), fun v lo hh hv => ?_⟩
      obtain ⟨⟨a, ha, ha'⟩, ⟨b, hb, hb'⟩⟩ := this.least v lo hh hv
      have mono : ∀ x ∈ m :: m :: ms, x ∈ m :: ms := by
        intro x hx
        rcases List.mem_cons.1 hx with hx | hx
        · rw [hx]; exact List.mem_cons_self
        · exact hx
      exact ⟨⟨a, mono a ha, ha'⟩, ⟨b, mono b hb, hb'⟩⟩
    · intro ha; exact hi.auxValues ha

/-- **C38** files with the same additional variables: no event is changed, lost or invented, and the order is kept. -/
theorem merge_same_names (bin str aux : Bool) (m : EventMeta) (ms : List EventMeta) (hg : GoodNames m.addNames) (hr : ∀ x ∈ m :: ms, Readable x)
    (hn : ∀ x ∈ ms, x.addNames = m.addNames) (r : EventMeta) (h : merge md5 bin str aux (m :: ms) = some r) :
    r.tree = some ⟨m.addNames, (m :: ms).flatMap fun x => (x.tree.map (·.rows)).getD []⟩ := by
  rw [(merge_concat md5 bin str aux m ms hg hr r h).1]
  have key : ∀ x ∈ m :: ms, project m.addNames x = (x.tree.map (·.rows)).getD [] := by
    intro x hx
    have hxn : x.addNames = m.addNames := by
      rcases List.mem_cons.1 hx with h | h
      · rw [h]
      · exact hn x h
    unfold project
    cases ht : x.tree with
    | none => rfl
    | some t =>
      have hw := hr x hx t ht
      show t.rows.map _ = t.rows
      conv_rhs => rw [← List.map_id t.rows]
      apply List.map_congr_left
      intro y hy
      rw [hw.cols, hxn, select_self hg.1 _ (by rw [hw.len y hy, hxn])]
      rfl
  rw [List.flatMap_congr key]

/-- **C38** a merged file can be merged again: the result is the one of merging all files at once. -/
theorem merge_again (bin str aux : Bool) (m : EventMeta) (ms rest : List EventMeta) (hg : GoodNames m.addNames) (hr : ∀ x ∈ m :: ms ++ rest, Readable x)
    (r : EventMeta) (h : merge md5 bin str aux (m :: ms) = some r) (r2 : EventMeta) (h2 : merge md5 bin str aux (r :: rest) = some r2) :
    ∃ r3, merge md5 bin str aux (m :: ms ++ rest) = some r3 ∧ r3.tree = r2.tree ∧ r3.contentHash = r2.contentHash := by
  have hr1 : ∀ x ∈ m :: ms, Readable x := fun x hx => hr x (by simp only [List.cons_append, List.mem_cons, List.mem_append] at hx ⊢; tauto)
  obtain ⟨c1, c2, c3, c4, c5, c6, c7, c8, c9⟩ := merge_concat md5 bin str aux m ms hg hr1 r h
  have hproj : ∀ f : EventMeta, ∀ x ∈ project m.addNames f, x.vals.length = m.addNames.length := by
    intro f x hx
    unfold project at hx
    split at hx
    · obtain ⟨y, _, rfl⟩ := List.mem_map.1 hx
      simp [select]
    · simp at hx
  have hrr : Readable r := by
    intro t ht
    rw [c1] at ht
    obtain rfl := Option.some.inj ht
    refine ⟨c1, by rw [c4], ?_⟩
    intro x hx
    obtain ⟨f, _, hf⟩ := List.mem_flatMap.1 hx
    rw [c4]; exact hproj f x hf
  have hr2 : ∀ x ∈ r :: rest, Readable x := by
    intro x hx
    rcases List.mem_cons.1 hx with rfl | hx
    · exact hrr
    · exact hr x (by simp [hx])
  have hg2 : GoodNames r.addNames := by rw [c4]; exact hg
  have hok1 : Mergeable bin aux m (m :: ms) := by
    by_contra hc
    rw [(merge_refused_iff md5 bin str aux m ms hg hr1).2 hc] at h
    simp at h
  have hok2 : Mergeable bin aux r (r :: rest) := by
    by_contra hc
    rw [(merge_refused_iff md5 bin str aux r rest hg2 hr2).2 hc] at h2
    simp at h2
  have hok3 : Mergeable bin aux m (m :: ms ++ rest) := by
    have cas : ∀ x ∈ m :: ms ++ rest, x ∈ m :: ms ∨ x ∈ rest := fun x hx => List.mem_append.1 hx
    have inr : ∀ x ∈ rest, x ∈ r :: rest := fun x hx => List.mem_cons_of_mem _ hx
    constructor
    · intro x hx; rcases cas x hx with hx | hx
      · exact hok1.tree x hx
      · exact hok2.tree x (inr x hx)
    · intro x hx; rcases cas x hx with hx | hx
      · exact hok1.prod x hx
      · rw [← c2]; exact hok2.prod x (inr x hx)
    · intro x hx; rcases cas x hx with hx | hx
      · exact hok1.decay x hx
      · rw [← c3]; exact hok2.decay x (inr x hx)
    · intro hb x hx; rcases cas x hx with hx | hx
      · exact hok1.bounds hb x hx
      · rw [← c6 hb]; exact hok2.bounds hb x (inr x hx)
    · intro hb x hx v hv; rcases cas x hx with hx | hx
      · exact hok1.vars hb x hx v hv
      · exact hok2.vars hb x (inr x hx) v (((c7 hb).dom v).2 hv)
    · intro x hx n hn t ht; rcases cas x hx with hx | hx
      · exact hok1.add x hx n hn t ht
      · exact hok2.add x (inr x hx) n (by rw [c4]; exact hn) t ht
    · intro ha x hx y hy v a b h1 h2
      have hrm : r ∈ r :: rest := List.mem_cons_self
      rcases cas x hx with hx | hx <;> rcases cas y hy with hy | hy
      · exact hok1.aux ha x hx y hy v a b h1 h2
      · exact hok2.aux ha r hrm y (inr y hy) v a b ((c8 ha v a).2 ⟨x, hx, h1⟩) h2
      · exact hok2.aux ha x (inr x hx) r hrm v a b h1 ((c8 ha v b).2 ⟨y, hy, h2⟩)
      · exact hok2.aux ha x (inr x hx) y (inr y hy) v a b h1 h2
  have h3 : merge md5 bin str aux (m :: ms ++ rest) ≠ none := fun hc =>
    (merge_refused_iff md5 bin str aux m (ms ++ rest) hg hr).1 hc hok3
  obtain ⟨r3, h3⟩ := Option.ne_none_iff_exists'.1 h3
  obtain ⟨d1, d2, d3, d4, d5, d6, d7, d8, d9⟩ := merge_concat md5 bin str aux m (ms ++ rest) hg hr r3 h3
  obtain ⟨e1, e2, e3, e4, e5, e6, e7, e8, e9⟩ := merge_concat md5 bin str aux r rest hg2 hr2 r2 h2
  have hpr : project m.addNames r = (m :: ms).flatMap (project m.addNames) := by
    unfold project
    rw [c1]
    show List.map _ _ = _
    conv_rhs => rw [← List.map_id (List.flatMap _ _)]
    apply List.map_congr_left
    intro y hy
    obtain ⟨f, _, hf⟩ := List.mem_flatMap.1 hy
    rw [select_self hg.1 _ (hproj f y hf)]
    rfl
  have htree : r3.tree = r2.tree := by
    rw [d1, e1, c4, List.flatMap_cons, List.flatMap_cons, hpr, List.flatMap_append, List.flatMap_cons, List.append_assoc]
  refine ⟨r3, h3, htree, ?_⟩
  rw [d5, e5]
  unfold EventMeta.recalculateHash EventMeta.updateHashor
  rw [htree, d4, e4, c4]

/-- witness: additional variables that only later files have are dropped without refusal. -/
theorem merge_drops_later_variables (x y : Dbl) :
    ∃ r, merge md5 false false false
        [{ EventMeta.default with addNames := ["m"], tree := some ⟨["m"], [⟨[], [], [x]⟩]⟩ },
         { EventMeta.default with addNames := ["m", "t"], tree := some ⟨["m", "t"], [⟨[], [], [x, y]⟩]⟩ }] = some r ∧
      r.tree = some ⟨["m"], [⟨[], [], [x]⟩, ⟨[], [], [x]⟩]⟩ := by
  have hg : GoodNames ["m"] := ⟨by simp, by decide⟩
  have hr : ∀ z ∈ [{ EventMeta.default with addNames := ["m"], tree := some ⟨["m"], [⟨[], [], [x]⟩]⟩ },
         { EventMeta.default with addNames := ["m", "t"], tree := some ⟨["m", "t"], [⟨[], [], [x, y]⟩]⟩ }], Readable z := by
    intro z hz t ht
    simp only [List.mem_cons, List.not_mem_nil, or_false] at hz
    rcases hz with rfl | rfl
    · obtain rfl := Option.some.inj ht; exact ⟨rfl, rfl, by simp⟩
    · obtain rfl := Option.some.inj ht; exact ⟨rfl, rfl, by simp⟩
  have hne : merge md5 false false false
        [{ EventMeta.default with addNames := ["m"], tree := some ⟨["m"], [⟨[], [], [x]⟩]⟩ },
         { EventMeta.default with addNames := ["m", "t"], tree := some ⟨["m", "t"], [⟨[], [], [x, y]⟩]⟩ }] ≠ none := by
    rw [ne_eq, merge_refused_iff md5 false false false _ _ hg hr, not_not]
    constructor <;> simp [EventMeta.default]
  obtain ⟨r, h⟩ := Option.ne_none_iff_exists'.1 hne
  refine ⟨r, h, ?_⟩
  rw [(merge_concat md5 false false false _ _ hg hr r h).1]
  simp [project, select, List.idxOf, List.findIdx, List.findIdx.go]

/-- witness: the kind of events is lost, even when all inputs are of the same kind. -/
theorem merge_loses_type :
    ∃ r, merge md5 false false false [{ EventMeta.default with eventsType := .real, tree := some ⟨[], []⟩ }] = some r ∧ r.eventsType = .other := by
  have hg : GoodNames [] := ⟨by simp, by simp⟩
  have hr : ∀ z ∈ [{ EventMeta.default with eventsType := .real, tree := some ⟨[], []⟩ }], Readable z := by
    intro z hz t ht
    rw [List.mem_singleton] at hz
    subst hz
    obtain rfl := Option.some.inj ht; exact ⟨rfl, rfl, by simp⟩
  have hne : merge md5 false false false [{ EventMeta.default with eventsType := .real, tree := some ⟨[], []⟩ }] ≠ none := by
    rw [ne_eq, merge_refused_iff md5 false false false _ _ hg hr, not_not]
    constructor <;> simp [EventMeta.default]
  obtain ⟨r, h⟩ := Option.ne_none_iff_exists'.1 hne
  exact ⟨r, h, (merge_concat md5 false false false _ _ hg hr r h).2.2.2.2.2.2.2.2⟩

/-- witness: with `mergeBinBoundaries`, a variable in which only a later file is binned is no longer recorded as binned. -/
theorem merge_ignores_later_bins :
    ∃ r, merge md5 true false false [{ EventMeta.default with tree := some ⟨[], []⟩ },
        { EventMeta.default with tree := some ⟨[], []⟩, bounds := fun v => if v = "mass" then some (1, 2) else none }] = some r ∧ r.bounds "mass" = none := by
  have hg : GoodNames [] := ⟨by simp, by simp⟩
  have hr : ∀ z ∈ [{ EventMeta.default with tree := some ⟨[], []⟩ },
        { EventMeta.default with tree := some ⟨[], []⟩, bounds := fun v => if v = "mass" then some (1, 2) else none }], Readable z := by
    intro z hz t ht
    simp only [List.mem_cons, List.not_mem_nil, or_false] at hz
    rcases hz with rfl | rfl
    · obtain rfl := Option.some.inj ht; exact ⟨rfl, rfl, by simp⟩
    · obtain rfl := Option.some.inj ht; exact ⟨rfl, rfl, by simp⟩
  have hne : merge md5 true false false [{ EventMeta.default with tree := some ⟨[], []⟩ },
        { EventMeta.default with tree := some ⟨[], []⟩, bounds := fun v => if v = "mass" then some (1, 2) else none }] ≠ none := by
    rw [ne_eq, merge_refused_iff md5 true false false _ _ hg hr, not_not]
    constructor <;> simp [EventMeta.default]
  obtain ⟨r, h⟩ := Option.ne_none_iff_exists'.1 hne
  refine ⟨r, h, ?_⟩
  have := ((merge_concat md5 true false false _ _ hg hr r h).2.2.2.2.2.2.1 rfl).dom "mass"
  by_contra hc
  exact (this.1 hc) rfl

end Rpwa.Storage

import Verif.Lemmas.EventMomenta

/-! # C15 – event momenta -/

namespace Rpwa.EventMomenta

section
variable {α M : Type} [DecidableEq α]

theorem target_some_iff (names : List α) (parts : List (FsPart α)) {i : ℕ} (h : i < parts.length) :
    (target names parts i).isSome ↔ want parts i < names.count parts[i].name := by
  simp [target, List.getElem?_eq_getElem h, ← pos_length]

theorem target_spec {names : List α} {parts : List (FsPart α)} {i k : ℕ}
    (h : target names parts i = some k) :
    ∃ hi : i < parts.length, names[k]? = some parts[i].name ∧
      (pos names parts[i].name)[want parts i]? = some k := by
  unfold target at h
  cases hp : parts[i]? with
  | none => rw [hp] at h; cases h
  | some p =>
    obtain ⟨hi, rfl⟩ := List.getElem?_eq_some_iff.1 hp
    rw [hp] at h
    exact ⟨hi, mem_pos.1 (List.mem_of_getElem? h), h⟩

theorem targets_perm (names : List α) (parts : List (FsPart α)) (hv : checkIndices parts = true)
    (hl : names.length = parts.length)
    (hall : ∀ i < parts.length, (target names parts i).isSome) :
    ((List.range parts.length).map fun i => (target names parts i).getD 0).Perm
      (List.range parts.length) := by
  have hget : ∀ i < parts.length, target names parts i = some ((target names parts i).getD 0) := by
    intro i hi
    obtain ⟨k, hk⟩ := Option.isSome_iff_exists.1 (hall i hi)
    rw [hk]; rfl
  have hinj := (want_lt_and_inj parts hv).2
  have hnd : ((List.range parts.length).map fun i => (target names parts i).getD 0).Nodup := by
    rw [List.nodup_map_iff_inj_on List.nodup_range]
    intro i hi j hj hij
    rw [List.mem_range] at hi hj
    obtain ⟨_, hi1, hi2⟩ := target_spec (hget i hi)
    obtain ⟨_, hj1, hj2⟩ := target_spec (hget j hj)
    rw [hij] at hi1 hi2
    have hn : parts[i].name = parts[j].name := by rw [hi1] at hj1; simpa using hj1
    refine hinj i j hi hj hn ?_
    rw [hn] at hi2
    have hlt : want parts i < (pos names parts[j].name).length := (List.getElem?_eq_some_iff.1 hi2).1
    exact (List.getElem?_inj hlt (pos_nodup names _)).1 (hi2.trans hj2.symm)
  refine (List.subperm_of_subset hnd ?_).perm_of_length_le (by simp)
  intro k hk
  obtain ⟨i, hi, rfl⟩ := List.mem_map.1 hk
  rw [List.mem_range] at hi
  obtain ⟨_, hi1, _⟩ := target_spec (hget i hi)
  rw [List.mem_range, ← hl]
  exact (List.getElem?_eq_some_iff.1 hi1).1

/-- **C15.** For a topology whose final-state indices pass the topology check, announcing the particle
names of an event file succeeds exactly when the file has the same particles as the topology (each
name equally often, in any order). -/
theorem init_succeeds_iff (t : Topo α M) (names : List α) (hv : checkIndices t.parts = true) :
    (initKinematicsData t true names).1 = true ↔ names.Perm (t.parts.map FsPart.name) := by
  obtain ⟨hmap, -, hsucc⟩ := loop_spec names t.parts
  have hlen : ∀ l : List ℕ, (l.filterMap fun i => (target names t.parts i).map fun k => (i, k)).length = l.length ↔
      ∀ i ∈ l, (target names t.parts i).isSome := by
    intro l
    induction l with
    | nil => simp
    | cons a l ih =>
      cases h : target names t.parts a with
      | none =>
        rw [List.filterMap_cons_none (by simp [h])]
        have := List.length_filterMap_le (fun i => (target names t.parts i).map fun k => (i, k)) l
        simp only [List.length_cons, List.mem_cons, forall_eq_or_imp, h, Option.isSome_none,
          Bool.false_eq_true, false_and, iff_false]
        omega
      | some k =>
        rw [List.filterMap_cons_some (by simp [h]; rfl)]
        simp [h, ih]
  unfold initKinematicsData
  by_cases hl : names.length = t.parts.length
  · simp only [Bool.not_true, hl, ne_eq, not_true, decide_false, Bool.or_self, Bool.false_eq_true,
      if_false, Bool.and_eq_true, decide_eq_true_eq]
    rw [hsucc, hmap]
    have h2 := hlen (List.range t.parts.length)
    rw [List.length_range] at h2
    rw [h2]
    simp only [List.mem_range, and_self]
    have hw := want_lt_and_inj t.parts hv
    constructor
    · intro h
      have hp := targets_perm names t.parts hv hl h
      -- the names found are the names of the file, permuted
      have h3 : t.parts.map (fun p => some p.name) =
          ((List.range t.parts.length).map fun i => (target names t.parts i).getD 0).map (names[·]?) := by
        apply List.ext_getElem
        · simp
        · intro i h1 h2
          simp only [List.length_map] at h1
          obtain ⟨k, hk⟩ := Option.isSome_iff_exists.1 (h i h1)
          obtain ⟨_, h4, _⟩ := target_spec hk
          simp [hk, h4]
      have h4 : (List.range t.parts.length).map (names[·]?) = names.map some := by
        apply List.ext_getElem
        · simp [hl]
        · intro i h1 h2
          simp at h1 h2
          simp [h2]
      have h5 : (t.parts.map (fun p => some p.name)).Perm (names.map some) := by
        rw [h3, ← h4]; exact hp.map _
      have h6 : ((t.parts.map FsPart.name).map some).Perm (names.map some) := by
        simpa [Function.comp_def] using h5
      exact ((List.map_perm_map_iff (Option.some_injective _)).1 h6).symm
    · intro hp i hi
      rw [target_some_iff _ _ hi, hp.count_eq]
      exact hw.1 i hi
  · have : ¬ names.Perm (t.parts.map FsPart.name) := fun h => hl (by simpa using h.length_eq)
    simp [hl, this]

/-- The topology after a successful announcement assigns distinct data positions … -/
theorem init_indexMap (t : Topo α M) (names : List α)
    (h : (initKinematicsData t true names).1 = true) :
    (∀ i < t.parts.length, target names t.parts i = some (lookupIdx (initKinematicsData t true names).2 i)) ∧
    names.length = t.parts.length ∧ (initKinematicsData t true names).2.parts = t.parts := by
  obtain ⟨hmap, -, hsucc⟩ := loop_spec names t.parts
  unfold initKinematicsData at h ⊢
  by_cases hl : names.length = t.parts.length
  · simp only [Bool.not_true, hl, ne_eq, not_true, decide_false, Bool.or_self, Bool.false_eq_true,
      if_false, Bool.and_eq_true, decide_eq_true_eq] at h ⊢
    refine ⟨?_, trivial, trivial⟩
    intro i hi
    have hall := hsucc.1 h.1
    unfold lookupIdx
    simp only
    rw [hmap]
    have hlook : ∀ l : List ℕ, (∀ i ∈ l, (target names t.parts i).isSome) → i ∈ l →
        (l.filterMap fun i => (target names t.parts i).map fun k => (i, k)).lookup i =
          target names t.parts i := by
      intro l
      induction l with
      | nil => simp
      | cons a l ih =>
        intro hl' hm
        obtain ⟨k, hk⟩ := Option.isSome_iff_exists.1 (hl' a (by simp))
        rw [List.filterMap_cons_some (by rw [hk]; rfl)]
        by_cases hia : i = a
        · subst hia; simp [List.lookup, hk]
        · have hm' : i ∈ l := by simpa [hia] using hm
          have hb : (i == a) = false := by simpa using hia
          simp only [List.lookup, hb]
          exact ih (fun j hj => hl' j (by simp [hj])) hm'
    rw [hlook _ (fun j hj => hall j (List.mem_range.1 hj)) (List.mem_range.2 hi)]
    obtain ⟨k, hk⟩ := Option.isSome_iff_exists.1 (hall i hi)
    rw [hk]; rfl
  · simp [hl] at h

/-- **C15.** After a successful announcement the map "particle → position in the file" is a bijection of
`0 … n-1`, and each particle reads from a position announced with its own name. -/
theorem index_map_bijective (t : Topo α M) (names : List α) (hv : checkIndices t.parts = true)
    (h : (initKinematicsData t true names).1 = true) :
    ((List.range t.parts.length).map (lookupIdx (initKinematicsData t true names).2)).Perm
      (List.range t.parts.length) ∧
    ∀ i (hi : i < t.parts.length),
      names[lookupIdx (initKinematicsData t true names).2 i]? = some t.parts[i].name := by
  obtain ⟨h1, hl, -⟩ := init_indexMap t names h
  constructor
  · have := targets_perm names t.parts hv hl (fun i hi => by rw [h1 i hi]; rfl)
    refine (List.Perm.of_eq ?_).trans this
    apply List.map_congr_left
    intro i hi
    rw [h1 i (List.mem_range.1 hi)]; rfl
  · intro i hi
    exact (target_spec (h1 i hi)).2.1

/-- Reading, spelled out. -/
theorem read_eq (t : Topo α M) (names : List α) (moms : List M)
    (h : (initKinematicsData t true names).1 = true) (hm : moms.length = names.length) :
    ∃ t', readKinematicsData (initKinematicsData t true names).2 true moms = (true, t') ∧
      t'.parts = t.parts ∧ t'.cache = t'.momenta ∧ t'.momenta.length = t.parts.length ∧
      ∀ i < t.parts.length, t'.momenta[i]? = moms[lookupIdx (initKinematicsData t true names).2 i]? := by
  obtain ⟨h1, hl, hparts⟩ := init_indexMap t names h
  set t1 := (initKinematicsData t true names).2 with ht1
  have hlt : ∀ i < t.parts.length, lookupIdx t1 i < moms.length := by
    intro i hi
    obtain ⟨_, h2, _⟩ := target_spec (h1 i hi)
    rw [hm]; exact (List.getElem?_eq_some_iff.1 h2).1
  have hlen : moms.length = t1.parts.length := by rw [hparts, hm, hl]
  have hnew : ∀ l : List ℕ, (∀ i ∈ l, i < t.parts.length) → (l.filterMap fun i =>
      match moms[lookupIdx t1 i]? with | some m => some m | none => t1.momenta[i]?).length = l.length ∧
      ∀ j < l.length, (l.filterMap fun i =>
        match moms[lookupIdx t1 i]? with | some m => some m | none => t1.momenta[i]?)[j]? =
        l[j]?.bind fun i => moms[lookupIdx t1 i]? := by
    intro l
    induction l with
    | nil => simp
    | cons a l ih =>
      intro hl'
      have ha := List.getElem?_eq_getElem (hlt a (hl' a (by simp)))
      obtain ⟨i1, i2⟩ := ih (fun i hi => hl' i (by simp [hi]))
      rw [List.filterMap_cons_some (by rw [ha])]
      refine ⟨by simp [i1], ?_⟩
      intro j hj
      cases j with
      | zero => simp [ha]
      | succ j => simpa using i2 j (by simpa using hj)
  have hn := hnew (List.range t.parts.length) (by simp)
  simp only [List.length_range] at hn
  refine ⟨{ t1 with
      momenta := (List.range t1.parts.length).filterMap fun i =>
        match moms[lookupIdx t1 i]? with | some m => some m | none => t1.momenta[i]?
      cache := (List.range t1.parts.length).filterMap fun i =>
        match moms[lookupIdx t1 i]? with | some m => some m | none => t1.momenta[i]? },
      ?_, ?_, rfl, ?_, ?_⟩
  · unfold readKinematicsData
    rw [if_neg (by simp [hlen])]
    refine Prod.ext ?_ rfl
    simp only
    rw [List.all_eq_true]
    intro i hi
    rw [List.mem_range, hparts] at hi
    simp [hlt i hi]
  · exact hparts
  · simp only [hparts]; exact hn.1
  · intro i hi
    simp only [hparts]
    rw [hn.2 i hi]
    simp [hi]

/-- **C15.** After announcing the names and reading the momenta of an event, the topology holds exactly the
(name, momentum) pairs of the event: nothing lost, nothing duplicated, nothing given to a particle of
another name. -/
theorem momenta_match_names (t : Topo α M) (names : List α) (moms : List M)
    (hv : checkIndices t.parts = true) (h : (initKinematicsData t true names).1 = true)
    (hm : moms.length = names.length) :
    ∃ t', readKinematicsData (initKinematicsData t true names).2 true moms = (true, t') ∧
      ((t.parts.map FsPart.name).zip t'.momenta).Perm (names.zip moms) := by
  obtain ⟨t', hr, -, -, hlen', hmom⟩ := read_eq t names moms h hm
  refine ⟨t', hr, ?_⟩
  obtain ⟨-, hl, -⟩ := init_indexMap t names h
  obtain ⟨hp, hn⟩ := index_map_bijective t names hv h
  set f := lookupIdx (initKinematicsData t true names).2
  have hz : ∀ i : ℕ, (names.zip moms)[i]? = (names[i]?).bind fun a => (moms[i]?).map fun m => (a, m) := by
    intro i
    by_cases hi : i < names.length
    · have hi' : i < moms.length := by omega
      simp [hi, hi']
    · have hi' : ¬ i < moms.length := by omega
      simp [hi, hi']
  have h1 : ((t.parts.map FsPart.name).zip t'.momenta).map some =
      ((List.range t.parts.length).map f).map ((names.zip moms)[·]?) := by
    apply List.ext_getElem
    · simp [hlen']
    · intro i h1 h2
      simp only [List.length_map, List.length_range] at h2
      have hi' : i < t'.momenta.length := by omega
      have h3 := hmom i h2
      rw [List.getElem?_eq_getElem hi'] at h3
      simp [hz, hn i h2, ← h3, f]
  have h2 : (List.range t.parts.length).map ((names.zip moms)[·]?) = (names.zip moms).map some := by
    apply List.ext_getElem
    · simp [hm, hl]
    · intro i h1 h2
      simp only [List.length_map] at h2
      simp only [List.getElem_map, List.getElem_range]
      rw [List.getElem?_eq_getElem h2]
  rw [← List.map_perm_map_iff (Option.some_injective _), h1, ← h2]
  exact hp.map _

/-- non-vacuity: a 4π topology with two π⁻, file in another order -/
example : checkIndices [⟨"pi-", -1⟩, ⟨"pi+", -1⟩, ⟨"pi-", -1⟩] = true ∧
    (initKinematicsData (⟨[⟨"pi-", -1⟩, ⟨"pi+", -1⟩, ⟨"pi-", -1⟩], [], [], []⟩ : Topo String ℕ) true
      ["pi+", "pi-", "pi-"]).1 = true ∧
    (readKinematicsData (initKinematicsData (⟨[⟨"pi-", 1⟩, ⟨"pi+", 0⟩, ⟨"pi-", 0⟩], [], [], []⟩ : Topo String ℕ) true
      ["pi+", "pi-", "pi-"]).2 true [10, 20, 30]).2.momenta = [30, 10, 20] := by decide

/-! ### independence of the order of names in the file -/

theorem filter_zip (names : List α) (moms : List M) (hm : moms.length = names.length) (nm : α) :
    (((names.zip moms).filter fun e => e.1 = nm).map Prod.snd).map some =
      (pos names nm).map (moms[·]?) := by
  induction names using List.reverseRecOn generalizing moms with
  | nil => simp [pos]
  | append_singleton l a ih =>
    rcases List.eq_nil_or_concat moms with rfl | ⟨ms, m, rfl⟩
    · simp at hm
    · have hm' : ms.length = l.length := by simpa using hm
      rw [List.concat_eq_append, List.zip_append hm'.symm, List.filter_append, List.map_append,
        List.map_append, ih ms hm', pos_append, List.map_append]
      congr 1
      · apply List.map_congr_left
        intro i hi
        rw [mem_pos] at hi
        have : i < ms.length := by rw [hm']; exact (List.getElem?_eq_some_iff.1 hi).1
        rw [List.getElem?_append_left this]
      · by_cases h : a = nm
        · simp [h, ← hm']
        · simp [h]

/-- **C15.** The order in which differently named particles are stored in the file is irrelevant: if two
event files contain, for every name, the same sequence of momenta, then reading them gives the same
momenta to every particle. -/
theorem order_irrelevant (t : Topo α M) (names names' : List α) (moms moms' : List M)
    (h : (initKinematicsData t true names).1 = true) (h' : (initKinematicsData t true names').1 = true)
    (hm : moms.length = names.length) (hm' : moms'.length = names'.length)
    (heq : ∀ nm, (names.zip moms).filter (fun e => e.1 = nm) = (names'.zip moms').filter (fun e => e.1 = nm)) :
    (readKinematicsData (initKinematicsData t true names).2 true moms).2.momenta =
    (readKinematicsData (initKinematicsData t true names').2 true moms').2.momenta := by
  obtain ⟨t1, hr1, -, -, hl1, hmom1⟩ := read_eq t names moms h hm
  obtain ⟨t2, hr2, -, -, hl2, hmom2⟩ := read_eq t names' moms' h' hm'
  rw [hr1, hr2]
  apply List.ext_getElem?
  intro i
  by_cases hi : i < t.parts.length
  · rw [hmom1 i hi, hmom2 i hi]
    have ht1 := (target_spec ((init_indexMap t names h).1 i hi)).2.2
    have ht2 := (target_spec ((init_indexMap t names' h').1 i hi)).2.2
    have e1 := filter_zip names moms hm t.parts[i].name
    have e2 := filter_zip names' moms' hm' t.parts[i].name
    rw [heq, e2] at e1
    have e3 := congrArg (fun l => l[want t.parts i]?) e1
    simp only [List.getElem?_map, ht1, ht2, Option.map_some, Option.some.injEq] at e3
    exact e3.symm
  · rw [List.getElem?_eq_none (by simp only; omega), List.getElem?_eq_none (by simp only; omega)]

example :
    let t : Topo String ℕ := ⟨[⟨"pi-", -1⟩, ⟨"pi+", -1⟩, ⟨"pi-", -1⟩], [], [], []⟩
    (readKinematicsData (initKinematicsData t true ["pi-", "pi-", "pi+"]).2 true [1, 2, 3]).2.momenta =
    (readKinematicsData (initKinematicsData t true ["pi-", "pi+", "pi-"]).2 true [1, 3, 2]).2.momenta := by
  decide

/-! ### reverting -/

/-- The operations available after reading an event: restoring, restoring with a permutation, and
arbitrary changes of the momenta by the amplitude calculation (space inversion, boosts, …). -/
inductive Op (M : Type)
  | revert
  | revertPerm (perm : List ℕ)
  | transform (f : M → M)

/-- Effect of one operation (`none` = undefined behaviour). -/
def applyOp (t : Topo α M) : Op M → Option (Topo α M)
  | .revert => some (revertMomenta t true).2
  | .revertPerm p => match revertMomentaPerm t true p with
      | .ok r => some r.2
      | _ => none
  | .transform f => some { t with momenta := t.momenta.map f }

/-- Effect of a sequence of operations. -/
def runOps (t : Topo α M) : List (Op M) → Option (Topo α M)
  | [] => some t
  | o :: os => (applyOp t o).bind fun t' => runOps t' os

omit [DecidableEq α] in
theorem runOps_cache {t t' : Topo α M} {ops : List (Op M)} (h : runOps t ops = some t') :
    t'.cache = t.cache ∧ t'.parts = t.parts := by
  induction ops generalizing t with
  | nil => simp only [runOps, Option.some.injEq] at h; subst h; exact ⟨rfl, rfl⟩
  | cons o os ih =>
    simp only [runOps] at h
    cases ho : applyOp t o with
    | none => rw [ho] at h; cases h
    | some t1 =>
      rw [ho] at h
      obtain ⟨h1, h2⟩ := ih h
      have : t1.cache = t.cache ∧ t1.parts = t.parts := by
        cases o with
        | revert =>
          simp only [applyOp, Option.some.injEq] at ho
          subst ho
          unfold revertMomenta; split <;> exact ⟨rfl, rfl⟩
        | revertPerm p =>
          simp only [applyOp] at ho
          unfold revertMomentaPerm at ho
          split at ho
          · rename_i r hr
            simp only [Option.some.injEq] at ho
            subst ho
            split at hr
            · cases hr; exact ⟨rfl, rfl⟩
            · split at hr
              · cases hr; exact ⟨rfl, rfl⟩
              · cases hr
          · cases ho
        | transform f =>
          simp only [applyOp, Option.some.injEq] at ho
          subst ho; exact ⟨rfl, rfl⟩
      exact ⟨h1.trans this.1, h2.trans this.2⟩

omit [DecidableEq α] in
/-- **C15.** After an event has been read into the topology, whatever sequence of transformations and
(permuted) reverts follows, reverting restores the momenta that were read. -/
theorem revert_restores (t t' : Topo α M) (ops : List (Op M)) (hread : t.cache = t.momenta)
    (hlen : t.momenta.length = t.parts.length) (h : runOps t ops = some t') :
    revertMomenta t' true = (true, { t' with momenta := t.momenta }) := by
  obtain ⟨h1, h2⟩ := runOps_cache h
  unfold revertMomenta
  rw [h1, h2, hread]
  simp [hlen]

omit [DecidableEq α] in
/-- **C15.** … and a permuted revert with a permutation `p` of the particles gives particle `i` the
momentum read for particle `p[i]`. -/
theorem revert_permutes (t t' : Topo α M) (ops : List (Op M)) (hread : t.cache = t.momenta)
    (hlen : t.momenta.length = t.parts.length) (h : runOps t ops = some t')
    (p : List ℕ) (hp : p.Perm (List.range t.parts.length)) :
    ∃ t'', revertMomentaPerm t' true p = .ok (true, t'') ∧
      t''.momenta.length = t.parts.length ∧
      ∀ i (hi : i < p.length), t''.momenta[i]? = t.momenta[p[i]]? := by
  obtain ⟨h1, h2⟩ := runOps_cache h
  have hpl : p.length = t.parts.length := by simpa using hp.length_eq
  have hlt : ∀ k ∈ p, k < t.momenta.length := by
    intro k hk; rw [hlen]; simpa using hp.subset hk
  have hgen : ∀ q : List ℕ, (∀ k ∈ q, k < t.momenta.length) →
      (q.filterMap fun k => t.momenta[k]?).length = q.length ∧
      ∀ i (hi : i < q.length), (q.filterMap fun k => t.momenta[k]?)[i]? = t.momenta[q[i]]? := by
    intro q
    induction q with
    | nil => simp
    | cons a q ih =>
      intro hq
      have ha := List.getElem?_eq_getElem (hq a (by simp))
      obtain ⟨i1, i2⟩ := ih (fun k hk => hq k (by simp [hk]))
      rw [List.filterMap_cons_some ha]
      refine ⟨by simp [i1], ?_⟩
      intro i hi
      cases i with
      | zero => simp [ha]
      | succ i => simpa using i2 i (by simpa using hi)
  refine ⟨{ t' with momenta := p.filterMap fun k => t'.cache[k]? }, ?_, ?_, ?_⟩
  · unfold revertMomentaPerm
    rw [if_neg (by rw [h1, h2, hread]; simp [hlen, hpl]),
      if_pos (by rw [h1, hread]; simpa using hlt)]
  · simp only [h1, hread]; rw [(hgen p hlt).1, hpl]
  · simp only [h1, hread]; exact (hgen p hlt).2

example :
    let t : Topo String ℕ := ⟨[⟨"pi-", -1⟩, ⟨"pi+", -1⟩, ⟨"pi-", -1⟩], [1, 2, 3], [], [1, 2, 3]⟩
    (runOps t [.transform (· + 5), .revertPerm [2, 1, 0], .transform (· * 2)]).map
      (fun t' => (revertMomenta t' true).2.momenta) = some [1, 2, 3] := by decide

/-- Mixed default and explicit indices are refused by the topology check; without the check the index
map can be non-injective although the announcement "succeeds". -/
theorem mixed_indices_unsafe :
    checkIndices [(⟨"pi-", -1⟩ : FsPart String), ⟨"pi-", 0⟩] = false ∧
    let t : Topo String ℕ := ⟨[⟨"pi-", -1⟩, ⟨"pi-", 0⟩], [], [], []⟩
    (initKinematicsData t true ["pi-", "pi-"]).1 = true ∧
    (readKinematicsData (initKinematicsData t true ["pi-", "pi-"]).2 true [1, 2]).2.momenta = [1, 1] := by
  decide

end

end Rpwa.EventMomenta

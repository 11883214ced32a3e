import Verif.Spec.TreeLeaf
import Verif.Lemmas.Outcome
import Mathlib.Data.List.Dedup
import Mathlib.Tactic.Ring
import Mathlib.Tactic.FieldSimp
import Mathlib.Algebra.BigOperators.Group.List.Basic
/-! # C96: amplitudes in trees -/
namespace Rpwa.TreeLeaf

/-! ### the map of the labels -/

theorem buildMap_spec : ∀ (ls : List String) (k : ℕ) (m : String → Option ℕ), ls.Nodup → ∀ l,
    buildMap k ls m l = if l ∈ ls then (ls.idxOf? l).map (· + k) else m l
  | [], k, m, _, l => by simp [buildMap]
  | x :: ls, k, m, hn, l => by
    unfold buildMap
    rw [buildMap_spec ls (k + 1) _ (List.nodup_cons.1 hn).2 l]
    by_cases hx : l = x
    · subst hx
      rw [if_neg (List.nodup_cons.1 hn).1, if_pos rfl, if_pos List.mem_cons_self]
      simp [List.idxOf?_cons]
    · by_cases hl : l ∈ ls
      · rw [if_pos hl, if_pos (List.mem_cons_of_mem _ hl), List.idxOf?_cons, if_neg (by simpa using Ne.symm hx), Option.map_map]
        congr 1
        funext i
        simp only [Function.comp]
        omega
      · rw [if_neg hl, if_neg hx, if_neg (by simp [hx, hl])]

theorem map_lookup {ls : List String} (hn : ls.Nodup) (l : String) (i : ℕ) : buildMap 0 ls (fun _ => none) l = some i ↔ ls[i]? = some l := by
  rw [buildMap_spec ls 0 _ hn]
  by_cases hl : l ∈ ls
  · rw [if_pos hl]
    have h1 : ls.idxOf? l = some (ls.idxOf l) := by
      rw [List.idxOf?_eq_some_iff]
      refine ⟨List.idxOf_lt_length_of_mem hl, by simp, fun j hj => ?_⟩
      have := List.not_of_lt_findIdx (p := (· == l)) (xs := ls) (i := j) hj
      simpa using this
    rw [h1, Option.map_some, Nat.add_zero, Option.some.injEq]
    constructor
    · rintro rfl
      rw [List.getElem?_eq_getElem (List.idxOf_lt_length_of_mem hl), List.getElem_idxOf]
    · intro h
      obtain ⟨hi, h2⟩ := List.getElem?_eq_some_iff.1 h
      rw [← h2]
      exact hn.idxOf_getElem i hi
  · rw [if_neg hl]
    exact ⟨fun h => (by cases h), fun h => absurd (List.mem_of_getElem? h) hl⟩

theorem resize_length (n : ℕ) (l : List ℂ) : (resize n l).length = n := by
  unfold resize
  rw [List.length_append, List.length_take, List.length_replicate]
  omega

theorem resize_get (n : ℕ) (l : List ℂ) (i : ℕ) (hi : i < n) : (resize n l)[i]? = some (l[i]?.getD 0) := by
  unfold resize
  by_cases h : i < l.length
  · rw [List.getElem?_append_left (by rw [List.length_take]; omega), List.getElem?_take, if_pos hi, List.getElem?_eq_getElem h]
    rfl
  · rw [List.getElem?_append_right (by rw [List.length_take]; omega), List.getElem?_replicate, if_pos (by rw [List.length_take]; omega),
      List.getElem?_eq_none (by omega)]
    rfl

theorem dedup_short (ls : List String) : ls.dedup.length < ls.length ↔ ¬ ls.Nodup := by
  constructor
  · intro h hn
    rw [List.dedup_eq_self.2 hn] at h
    omega
  · intro h
    refine lt_of_le_of_ne (List.dedup_sublist ls).length_le fun he => h ?_
    rw [← List.dedup_eq_self]
    exact (List.dedup_sublist ls).eq_of_length he

/-! ### the loops over the sub-amplitudes -/

theorem at_iff (a : Leaf) (i : ℕ) : (∀ z, a.at i = .ok z ↔ a.amps[i]? = some z) ∧ (a.at i = .ub ↔ a.amps.length ≤ i) ∧ a.at i ≠ .terminate := by
  unfold Leaf.at
  cases h : a.amps[i]? with
  | none => exact ⟨fun z => by simp, ⟨fun _ => List.getElem?_eq_none_iff.1 h, fun _ => rfl⟩, by simp⟩
  | some z =>
    refine ⟨fun w => by simp, ⟨fun h' => by simp at h', fun h' => ?_⟩, by simp⟩
    rw [List.getElem?_eq_none h'] at h
    cases h

theorem combine_ok (op : ℂ → ℂ → ℂ) (b : Leaf) : ∀ (k : ℕ) (l : List ℂ), l.length + k ≤ b.amps.length →
    combine op b k l = .ok (List.zipWith op l (b.amps.drop k))
  | _, [], _ => by simp [combine]
  | k, z :: zs, h => by
    have hk : k < b.amps.length := by rw [List.length_cons] at h; omega
    have h1 : b.at k = .ok b.amps[k] := ((at_iff b k).1 _).2 (List.getElem?_eq_getElem hk)
    unfold combine
    rw [h1, Outcome.ok_bind, combine_ok op b (k + 1) zs (by rw [List.length_cons] at h; omega), List.drop_eq_getElem_cons hk]
    rfl

theorem combine_ub (op : ℂ → ℂ → ℂ) (b : Leaf) : ∀ (k : ℕ) (l : List ℂ), k ≤ b.amps.length → b.amps.length < l.length + k →
    combine op b k l = .ub
  | _, [], h, h' => by rw [List.length_nil] at h'; omega
  | k, z :: zs, h, h' => by
    unfold combine
    by_cases hk : k < b.amps.length
    · have h1 : b.at k = .ok b.amps[k] := ((at_iff b k).1 _).2 (List.getElem?_eq_getElem hk)
      rw [h1, Outcome.ok_bind, combine_ub op b (k + 1) zs hk (by rw [List.length_cons] at h'; omega)]
      rfl
    · rw [(at_iff b k).2.1.2 (by omega)]
      rfl

theorem add_ok {a b : Leaf} (hl : a.labels = b.labels) (hs : a.amps.length ≤ b.amps.length) :
    Leaf.add b a = .ok { a with amps := List.zipWith (fun x y => x + y) a.amps b.amps } := by
  unfold Leaf.add
  rw [if_neg (not_not.2 hl), combine_ok _ _ _ _ (by omega), List.drop_zero]
  rfl

theorem sub_ok {a b : Leaf} (hl : a.labels = b.labels) (hs : a.amps.length ≤ b.amps.length) :
    Leaf.sub b a = .ok { a with amps := List.zipWith (fun x y => x - y) a.amps b.amps } := by
  unfold Leaf.sub
  rw [if_neg (not_not.2 hl), combine_ok _ _ _ _ (by omega), List.drop_zero]
  rfl

theorem add_cases {a b : Leaf} : (a.labels ≠ b.labels ∧ Leaf.add b a = .terminate) ∨
    (a.labels = b.labels ∧ b.amps.length < a.amps.length ∧ Leaf.add b a = .ub) ∨ (a.labels = b.labels ∧ a.amps.length ≤ b.amps.length ∧ ∃ c, Leaf.add b a = .ok c) := by
  by_cases hl : a.labels = b.labels
  · rcases le_or_gt a.amps.length b.amps.length with h | h
    · exact Or.inr (Or.inr ⟨hl, h, _, add_ok hl h⟩)
    · refine Or.inr (Or.inl ⟨hl, h, ?_⟩)
      unfold Leaf.add
      rw [if_neg (not_not.2 hl), combine_ub _ _ _ _ (by omega) (by omega)]
      rfl
  · refine Or.inl ⟨hl, ?_⟩
    unfold Leaf.add
    rw [if_pos hl]

theorem sub_cases {a b : Leaf} : (a.labels ≠ b.labels ∧ Leaf.sub b a = .terminate) ∨
    (a.labels = b.labels ∧ b.amps.length < a.amps.length ∧ Leaf.sub b a = .ub) ∨ (a.labels = b.labels ∧ a.amps.length ≤ b.amps.length ∧ ∃ c, Leaf.sub b a = .ok c) := by
  by_cases hl : a.labels = b.labels
  · rcases le_or_gt a.amps.length b.amps.length with h | h
    · exact Or.inr (Or.inr ⟨hl, h, _, sub_ok hl h⟩)
    · refine Or.inr (Or.inl ⟨hl, h, ?_⟩)
      unfold Leaf.sub
      rw [if_neg (not_not.2 hl), combine_ub _ _ _ _ (by omega) (by omega)]
      rfl
  · refine Or.inl ⟨hl, ?_⟩
    unfold Leaf.sub
    rw [if_pos hl]

/-! ### the invariant -/

theorem good_of {a b : Leaf} (h : Good a) (h1 : b.labels = a.labels) (h2 : b.amps.length = a.amps.length) (h3 : b.map = a.map) : Good b :=
  ⟨by rw [h1]; exact h.unique, by rw [h1, h2]; exact h.size, by rw [h1, h2]; exact h.unlabelled, by rw [h1, h3]; exact h.lookup⟩

/-- **C96.** Whatever calls are made: the labels are different from each other, there is one amplitude for every label, and looking up a label gives its position. -/
theorem reachable_good {a : Leaf} (h : Reachable a) : Good a := by
  induction h with
  | new => exact ⟨by simp [Leaf.new], by simp [Leaf.new], by simp [Leaf.new], by simp [Leaf.new]⟩
  | clear _ _ => exact ⟨by simp [Leaf.clear], by simp [Leaf.clear], by simp [Leaf.clear], by simp [Leaf.clear]⟩
  | @define a b ls _ hd _ =>
    unfold Leaf.define at hd
    by_cases hn : ls.dedup.length < ls.length
    · rw [if_pos hn] at hd; cases hd
    · rw [if_neg hn] at hd
      have hn' : ls.Nodup := not_not.1 (mt (dedup_short ls).2 hn)
      cases hd
      exact ⟨hn', fun _ => resize_length _ _, fun h => by
        have h' : ls = [] := h
        show (resize ls.length a.amps).length ≤ 1
        rw [resize_length, h']; simp, fun l i => map_lookup hn' l i⟩
  | @set a b z i _ hs ih =>
    unfold Leaf.set at hs
    split at hs
    · cases hs
      exact good_of ih rfl (List.length_set ..) rfl
    · cases hs
  | @add a b c _ _ hc ih1 ih2 =>
    rcases add_cases (a := a) (b := b) with ⟨-, h⟩ | ⟨-, -, h⟩ | ⟨h1, h2, -⟩
    · rw [h] at hc; cases hc
    · rw [h] at hc; cases hc
    · rw [add_ok h1 h2] at hc
      cases hc
      exact good_of ih1 rfl (by rw [List.length_zipWith]; omega) rfl
  | @sub a b c _ _ hc ih1 ih2 =>
    rcases sub_cases (a := a) (b := b) with ⟨-, h⟩ | ⟨-, -, h⟩ | ⟨h1, h2, -⟩
    · rw [h] at hc; cases hc
    · rw [h] at hc; cases hc
    · rw [sub_ok h1 h2] at hc
      cases hc
      exact good_of ih1 rfl (by rw [List.length_zipWith]; omega) rfl
  | mul c _ ih => exact good_of ih rfl (List.length_map _) rfl
  | div c _ ih => exact good_of ih rfl (List.length_map _) rfl
  | stored _ ih => exact ⟨ih.unique, ih.size, ih.unlabelled, fun l i => map_lookup ih.unique l i⟩

/-- **C96.** Storing and reading changes nothing. -/
theorem stored_same {a : Leaf} (h : Reachable a) : a.stored = a := by
  have hg := reachable_good h
  have : a.stored.map = a.map := by
    funext l
    refine Option.ext fun i => ?_
    rw [hg.lookup l i]
    exact map_lookup hg.unique l i
  cases a
  exact congrArg (Leaf.mk _ _) this

/-- **C96.** Access by label: the amplitude at the position of the label; a label that was not defined ends the program. -/
theorem atLabel_spec {a : Leaf} (h : Reachable a) (l : String) :
    (∀ i, a.labels[i]? = some l → a.index l = .ok i ∧ a.name i = .ok l ∧ a.contains l = true ∧ ∃ z, a.amps[i]? = some z ∧ a.atLabel l = .ok z) ∧
      (l ∉ a.labels → a.atLabel l = .terminate ∧ a.contains l = false) := by
  have hg := reachable_good h
  constructor
  · intro i hi
    have hm := (hg.lookup l i).2 hi
    have hx : a.index l = .ok i := by unfold Leaf.index; rw [hm]
    have hne : a.labels ≠ [] := fun h0 => by rw [h0] at hi; cases hi
    have hlt : i < a.amps.length := by
      rw [hg.size hne]
      exact (List.getElem?_eq_some_iff.1 hi).1
    refine ⟨hx, by unfold Leaf.name; rw [hi], by unfold Leaf.contains; rw [hm]; rfl, _, List.getElem?_eq_getElem hlt, ?_⟩
    unfold Leaf.atLabel
    rw [hx, Outcome.ok_bind]
    exact ((at_iff a i).1 _).2 (List.getElem?_eq_getElem hlt)
  · intro hl
    have hm : a.map l = none := by
      cases h0 : a.map l with
      | none => rfl
      | some i => exact absurd (List.mem_of_getElem? ((hg.lookup l i).1 h0)) hl
    refine ⟨?_, by unfold Leaf.contains; rw [hm]; rfl⟩
    unfold Leaf.atLabel Leaf.index
    rw [hm]
    rfl

/-! ### changes -/

/-- **C96.** Defining sub-amplitudes works exactly for different labels; amplitudes that were there before stay in their positions, whatever they were called; the
others are zero. -/
theorem define_spec (ls : List String) (a : Leaf) :
    (ls.Nodup → ∃ b, Leaf.define ls a = .ok b ∧ b.labels = ls ∧ b.amps.length = ls.length ∧ ∀ i, i < ls.length → b.amps[i]? = some (a.amps[i]?.getD 0)) ∧
      (¬ ls.Nodup → Leaf.define ls a = .terminate) := by
  unfold Leaf.define
  constructor
  · intro hn
    rw [if_neg (fun h => (dedup_short ls).1 h hn)]
    exact ⟨_, rfl, rfl, resize_length _ _, fun i hi => resize_get _ _ _ hi⟩
  · intro hn
    rw [if_pos ((dedup_short ls).2 hn)]

/-- **C96.** Setting an amplitude changes this one only; outside of the range memory of others is written. -/
theorem set_spec (z : ℂ) (i : ℕ) (a : Leaf) :
    (i < a.amps.length → ∃ b, Leaf.set z i a = .ok b ∧ b.labels = a.labels ∧ b.amps[i]? = some z ∧ ∀ j, j ≠ i → b.amps[j]? = a.amps[j]?) ∧
      (a.amps.length ≤ i → Leaf.set z i a = .ub) := by
  unfold Leaf.set
  constructor
  · intro h
    rw [if_pos h]
    exact ⟨_, rfl, rfl, by simp [h], fun j hj => by simp [List.getElem?_set_ne (Ne.symm hj)]⟩
  · intro h
    rw [if_neg (by omega)]

/-- **C96.** Which leaves can be added: those with the same labels; leaves with other labels end the program.  Two leaves without labels are not safe: one with an
amplitude and one without (`defineIncohSubAmps` with no label) read outside of the vector. -/
theorem add_iff {a b : Leaf} (ha : Reachable a) (hb : Reachable b) :
    ((∃ c, Leaf.add b a = .ok c) ↔ a.labels = b.labels ∧ ¬ (a.amps.length = 1 ∧ b.amps.length = 0)) ∧
      (Leaf.add b a = .terminate ↔ a.labels ≠ b.labels) ∧ (Leaf.add b a = .ub ↔ a.labels = b.labels ∧ a.amps.length = 1 ∧ b.amps.length = 0) := by
  have ga := reachable_good ha
  have gb := reachable_good hb
  have key : a.labels = b.labels → (b.amps.length < a.amps.length ↔ a.amps.length = 1 ∧ b.amps.length = 0) := by
    intro h
    by_cases h0 : a.labels = []
    · have h1 := ga.unlabelled h0
      have h2 := gb.unlabelled (h ▸ h0)
      omega
    · have h1 := ga.size h0
      have h2 := gb.size (h ▸ h0)
      rw [← h] at h2
      have := List.length_pos_iff.2 h0
      omega
  rcases add_cases (a := a) (b := b) with ⟨h1, h⟩ | ⟨h1, h2, h⟩ | ⟨h1, h2, c, h⟩ <;> rw [h]
  · simp [h1]
  · have := (key h1).1 h2
    simp [h1, this.1, this.2]
  · have h5 : ¬ (a.amps.length = 1 ∧ b.amps.length = 0) := fun h3 => by have := (key h1).2 h3; omega
    exact ⟨⟨fun _ => ⟨h1, h5⟩, fun _ => ⟨c, rfl⟩⟩, ⟨fun h => (by cases h), fun h => absurd h1 h⟩, ⟨fun h => (by cases h), fun h => absurd h.2 h5⟩⟩

/-- **C96.** The sum and the difference, label by label. -/
theorem add_atLabel {a b c : Leaf} (ha : Reachable a) (hb : Reachable b) (hc : Leaf.add b a = .ok c) :
    c.labels = a.labels ∧ ∀ l ∈ a.labels, ∃ x y, a.atLabel l = .ok x ∧ b.atLabel l = .ok y ∧ c.atLabel l = .ok (x + y) := by
  have hr := Reachable.add ha hb hc
  rcases add_cases (a := a) (b := b) with ⟨-, h⟩ | ⟨-, -, h⟩ | ⟨h1, h2, -⟩
  · rw [h] at hc; cases hc
  · rw [h] at hc; cases hc
  · have hc' := hc
    rw [add_ok h1 h2] at hc'
    have e1 : c.labels = a.labels := by cases hc'; rfl
    have e2 : c.amps = List.zipWith (fun x y => x + y) a.amps b.amps := by cases hc'; rfl
    refine ⟨e1, fun l hl => ?_⟩
    obtain ⟨i, hi⟩ := List.getElem?_of_mem hl
    obtain ⟨-, -, -, x, hx, hx'⟩ := (atLabel_spec ha l).1 i hi
    obtain ⟨-, -, -, y, hy, hy'⟩ := (atLabel_spec hb l).1 i (h1 ▸ hi)
    obtain ⟨-, -, -, z, hz, hz'⟩ := (atLabel_spec hr l).1 i (e1 ▸ hi)
    refine ⟨x, y, hx', hy', ?_⟩
    rw [e2, List.getElem?_zipWith, hx, hy] at hz
    rw [hz', ← Option.some.inj hz]

theorem sub_atLabel {a b c : Leaf} (ha : Reachable a) (hb : Reachable b) (hc : Leaf.sub b a = .ok c) :
    c.labels = a.labels ∧ ∀ l ∈ a.labels, ∃ x y, a.atLabel l = .ok x ∧ b.atLabel l = .ok y ∧ c.atLabel l = .ok (x - y) := by
  have hr := Reachable.sub ha hb hc
  rcases sub_cases (a := a) (b := b) with ⟨-, h⟩ | ⟨-, -, h⟩ | ⟨h1, h2, -⟩
  · rw [h] at hc; cases hc
  · rw [h] at hc; cases hc
  · have hc' := hc
    rw [sub_ok h1 h2] at hc'
    have e1 : c.labels = a.labels := by cases hc'; rfl
    have e2 : c.amps = List.zipWith (fun x y => x - y) a.amps b.amps := by cases hc'; rfl
    refine ⟨e1, fun l hl => ?_⟩
    obtain ⟨i, hi⟩ := List.getElem?_of_mem hl
    obtain ⟨-, -, -, x, hx, hx'⟩ := (atLabel_spec ha l).1 i hi
    obtain ⟨-, -, -, y, hy, hy'⟩ := (atLabel_spec hb l).1 i (h1 ▸ hi)
    obtain ⟨-, -, -, z, hz, hz'⟩ := (atLabel_spec hr l).1 i (e1 ▸ hi)
    refine ⟨x, y, hx', hy', ?_⟩
    rw [e2, List.getElem?_zipWith, hx, hy] at hz
    rw [hz', ← Option.some.inj hz]

/-- **C96.** Scaling: every amplitude is multiplied or divided; both undo each other for factors that are not zero. -/
theorem scale_atLabel {a : Leaf} (ha : Reachable a) (c : ℂ) {l : String} {x : ℂ} (hx : a.atLabel l = .ok x) :
    (Leaf.mul c a).atLabel l = .ok (x * c) ∧ (Leaf.div c a).atLabel l = .ok (x / c) ∧ (c ≠ 0 → (Leaf.div c (Leaf.mul c a)) = a ∧ (Leaf.mul c (Leaf.div c a)) = a) := by
  have hl : l ∈ a.labels := by
    by_contra h
    rw [((atLabel_spec ha l).2 h).1] at hx
    cases hx
  obtain ⟨i, hi⟩ := List.getElem?_of_mem hl
  obtain ⟨-, -, -, x', hx1, hx2⟩ := (atLabel_spec ha l).1 i hi
  rw [hx] at hx2
  cases hx2
  obtain ⟨-, -, -, y, hy1, hy2⟩ := (atLabel_spec (Reachable.mul c ha) l).1 i hi
  obtain ⟨-, -, -, z, hz1, hz2⟩ := (atLabel_spec (Reachable.div c ha) l).1 i hi
  refine ⟨?_, ?_, fun hc => ⟨?_, ?_⟩⟩
  · have h' : (a.amps.map (· * c))[i]? = some y := hy1
    rw [List.getElem?_map, hx1] at h'
    rw [hy2, ← Option.some.inj h']
  · have h' : (a.amps.map (· / c))[i]? = some z := hz1
    rw [List.getElem?_map, hx1] at h'
    rw [hz2, ← Option.some.inj h']
  · cases a
    unfold Leaf.div Leaf.mul
    simp only [List.map_map, Leaf.mk.injEq, and_true]
    refine (List.map_congr_left fun w _ => ?_).trans (List.map_id _)
    simp only [Function.comp, id]
    field_simp
  · cases a
    unfold Leaf.div Leaf.mul
    simp only [List.map_map, Leaf.mk.injEq, and_true]
    refine (List.map_congr_left fun w _ => ?_).trans (List.map_id _)
    simp only [Function.comp, id]
    field_simp

/-- **C96.** Summing leaves with the same labels, starting with a new one, gives for every label the sum of their amplitudes. -/
theorem sum_leaves {ls : List String} (hls : ls ≠ []) {a0 : Leaf} (h0 : Leaf.define ls Leaf.new = .ok a0) : ∀ {bs : List Leaf},
    (∀ b ∈ bs, Reachable b ∧ b.labels = ls) →
    ∃ s, bs.foldlM (fun a b => Leaf.add b a) a0 = .ok s ∧ s.labels = ls ∧ ∀ l ∈ ls, ∃ v : Leaf → ℂ, (∀ b ∈ bs, b.atLabel l = .ok (v b)) ∧
      s.atLabel l = .ok (bs.map v).sum := by
  have gen : ∀ (bs : List Leaf) (a : Leaf), Reachable a → a.labels = ls → (∀ b ∈ bs, Reachable b ∧ b.labels = ls) →
      ∃ s, bs.foldlM (fun a b => Leaf.add b a) a = .ok s ∧ s.labels = ls ∧ ∀ l ∈ ls, ∃ (v : Leaf → ℂ) (x : ℂ), (∀ b ∈ bs, b.atLabel l = .ok (v b)) ∧
        a.atLabel l = .ok x ∧ s.atLabel l = .ok (x + (bs.map v).sum) := by
    intro bs
    induction bs with
    | nil =>
      intro a ha hl _
      refine ⟨a, rfl, hl, fun l hm => ?_⟩
      obtain ⟨i, hi⟩ := List.getElem?_of_mem (hl ▸ hm)
      obtain ⟨-, -, -, x, -, hx⟩ := (atLabel_spec ha l).1 i hi
      exact ⟨fun _ => 0, x, by simp, hx, by simpa using hx⟩
    | cons b bs ih =>
      intro a ha hl hb
      obtain ⟨rb, lb⟩ := hb b List.mem_cons_self
      have hsz : a.amps.length ≤ b.amps.length := by
        rw [(reachable_good ha).size (hl ▸ hls), (reachable_good rb).size (lb ▸ hls), hl, lb]
      have hadd := add_ok (hl.trans lb.symm) hsz
      obtain ⟨e1, e2⟩ := add_atLabel ha rb hadd
      obtain ⟨s, h1, h2, h3⟩ := ih _ (Reachable.add ha rb hadd) (e1.trans hl) fun x hx => hb x (List.mem_cons_of_mem _ hx)
      refine ⟨s, ?_, h2, fun l hm => ?_⟩
      · rw [List.foldlM_cons, hadd]; exact h1
      · obtain ⟨v, x, g1, g2, g3⟩ := h3 l hm
        obtain ⟨p, q, p1, p2, p3⟩ := e2 l (hl ▸ hm)
        rw [p3] at g2
        cases g2
        classical
        refine ⟨fun y => if y = b then q else v y, p, ?_, p1, ?_⟩
        · intro y hy
          by_cases hyb : y = b
          · subst hyb; dsimp only; rw [if_pos rfl]; exact p2
          · dsimp only
            rw [if_neg hyb]
            exact g1 y ((List.mem_cons.1 hy).resolve_left hyb)
        · rw [g3, List.map_cons, List.sum_cons, if_pos rfl]
          have : bs.map v = bs.map fun y => if y = b then q else v y := by
            refine List.map_congr_left fun y hy => ?_
            by_cases hyb : y = b
            · subst hyb
              rw [if_pos rfl]
              have := g1 y hy
              rw [p2] at this
              cases this
              rfl
            · rw [if_neg hyb]
          rw [← this]
          congr 1
          ring
  intro bs hb
  have hr : Reachable a0 := Reachable.define ls Reachable.new h0
  have hnd : ls.Nodup := by
    by_contra h
    rw [(define_spec ls Leaf.new).2 h] at h0
    cases h0
  obtain ⟨b, d1, d2, d3, d4⟩ := (define_spec ls Leaf.new).1 hnd
  rw [h0] at d1
  cases d1
  obtain ⟨s, h1, h2, h3⟩ := gen bs a0 hr d2 hb
  refine ⟨s, h1, h2, fun l hm => ?_⟩
  obtain ⟨v, x, g1, g2, g3⟩ := h3 l hm
  refine ⟨v, g1, ?_⟩
  have hx : x = 0 := by
    obtain ⟨i, hi⟩ := List.getElem?_of_mem hm
    obtain ⟨-, -, -, y, hy, hy'⟩ := (atLabel_spec hr l).1 i (d2.symm ▸ hi)
    rw [g2] at hy'
    cases hy'
    have := d4 i (List.getElem?_eq_some_iff.1 hi).1
    rw [hy] at this
    rw [Option.some.inj this]
    show (([0] : List ℂ)[i]?).getD 0 = 0
    cases i <;> rfl
  rw [g3, hx, zero_add]

/-! ### comparison -/

theorem equalLoop_spec (b : Leaf) : ∀ (l : List ℂ) (k : ℕ), k ≤ b.amps.length →
    (equalLoop b k l = .ok true ↔ l <+: b.amps.drop k) ∧ (equalLoop b k l = .ub ↔ b.amps.drop k <+: l ∧ b.amps.length < k + l.length) ∧
      equalLoop b k l ≠ .terminate
  | [], k, hk => by
    refine ⟨by simp [equalLoop], ?_, by simp [equalLoop]⟩
    simp only [equalLoop, List.length_nil, reduceCtorEq, false_iff, not_and]
    omega
  | z :: zs, k, hk' => by
    by_cases hk : k < b.amps.length
    · obtain ⟨h1, h2, h3⟩ := equalLoop_spec b zs (k + 1) hk
      have ha : b.at k = .ok b.amps[k] := ((at_iff b k).1 _).2 (List.getElem?_eq_getElem hk)
      unfold equalLoop
      rw [ha, Outcome.ok_bind, List.drop_eq_getElem_cons hk]
      by_cases hz : z = b.amps[k]
      · rw [if_neg (not_not.2 hz), ← hz, List.prefix_cons_inj, List.prefix_cons_inj, h1, h2]
        refine ⟨Iff.rfl, ?_, h3⟩
        rw [List.length_cons]
        constructor
        · rintro ⟨q, r⟩; exact ⟨q, by omega⟩
        · rintro ⟨q, r⟩; exact ⟨q, by omega⟩
      · rw [if_pos hz]
        refine ⟨⟨fun h => (by cases h), fun h => absurd (List.cons_prefix_cons.1 h).1 hz⟩,
          ⟨fun h => (by cases h), fun h => absurd (List.cons_prefix_cons.1 h.1).1.symm hz⟩, by simp⟩
    · have ha : b.at k = .ub := (at_iff b k).2.1.2 (by omega)
      unfold equalLoop
      rw [ha, List.drop_eq_nil_of_le (by omega)]
      refine ⟨⟨fun h => (by cases h), fun h => by simp at h⟩, ⟨fun _ => ⟨List.nil_prefix, ?_⟩, fun _ => rfl⟩, fun h => by cases h⟩
      rw [List.length_cons]
      omega

/-- **C96.** What `==` answers.  Labels are not compared; the amplitudes of the left side have to be the first ones of the right side. Where the right side has
fewer amplitudes and they are the first ones of the left side, memory of others is read. -/
theorem equal_iff (a b : Leaf) : (Leaf.equal a b = .ok true ↔ a.amps <+: b.amps) ∧
    (Leaf.equal a b = .ub ↔ b.amps <+: a.amps ∧ b.amps.length < a.amps.length) ∧ Leaf.equal a b ≠ .terminate := by
  have h := equalLoop_spec b a.amps 0 (Nat.zero_le _)
  rw [List.drop_zero, Nat.zero_add] at h
  unfold Leaf.equal
  rw [if_neg (not_not.2 rfl)]
  exact h

/-- **C96.** With as many amplitudes on both sides `==` compares them. -/
theorem equal_same_size {a b : Leaf} (hs : a.amps.length = b.amps.length) :
    ∃ r, Leaf.equal a b = .ok r ∧ (r = true ↔ a.amps = b.amps) := by
  obtain ⟨h1, h2, h3⟩ := equal_iff a b
  cases h : Leaf.equal a b with
  | terminate => exact absurd h h3
  | ub => have := (h2.1 h).2; omega
  | ok r =>
    refine ⟨r, rfl, ?_⟩
    constructor
    · rintro rfl
      exact (h1.1 h).eq_of_length hs
    · intro e
      have := h1.2 (e ▸ List.prefix_rfl)
      rw [h] at this
      cases this
      rfl

end Rpwa.TreeLeaf

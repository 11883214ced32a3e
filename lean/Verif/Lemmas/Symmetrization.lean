import Verif.Model.Symmetrization
import Verif.Lemmas.NextPerm
import Mathlib.Data.List.Permutation
import Mathlib.Data.Finset.Card
import Mathlib.Data.List.NodupEquivFin

namespace Rpwa.NextPerm

/-- permutations of `l` behind `l` in lexicographic order -/
def later (l : List ℕ) : Finset (List ℕ) := l.permutations.toFinset.filter (l < ·)

theorem later_lt {l l' : List ℕ} (h : next l = some l') : (later l').card < (later l).card := by
  apply Finset.card_lt_card
  rw [Finset.ssubset_iff_of_subset]
  · refine ⟨l', ?_, ?_⟩
    · simp [later, next_perm h, next_gt h]
    · simp [later]
  · intro p hp
    simp only [later, Finset.mem_filter, List.mem_toFinset, List.mem_permutations] at hp ⊢
    exact ⟨hp.1.trans (next_perm h), (next_gt h).trans hp.2⟩

theorem next_induction {motive : List ℕ → Prop}
    (step : ∀ l, (∀ l', next l = some l' → motive l') → motive l) (l : List ℕ) : motive l := by
  induction hk : (later l).card using Nat.strong_induction_on generalizing l with
  | _ k ih => exact step l fun l' hl' => ih _ (hk ▸ later_lt hl') l' rfl

/-- the orders visited by `do … while (next_permutation)` -/
def visits (l : List ℕ) : List (List ℕ) :=
  match h : next l with
  | some l' => l :: visits l'
  | none => [l]
termination_by (later l).card
decreasing_by exact later_lt h

theorem visits_some {l l' : List ℕ} (h : next l = some l') : visits l = l :: visits l' := by
  rw [visits]; split
  · rename_i h'; rw [h] at h'; cases h'; rfl
  · rename_i h'; rw [h] at h'; cases h'

theorem visits_none {l : List ℕ} (h : next l = none) : visits l = [l] := by
  rw [visits]; split
  · rename_i h'; rw [h] at h'; cases h'
  · rfl

theorem mem_visits {l p : List ℕ} : p ∈ visits l ↔ p.Perm l ∧ ¬ p < l := by
  induction l using next_induction with
  | step l ih =>
    cases h : next l with
    | none =>
      rw [visits_none h, List.mem_singleton]
      constructor
      · rintro rfl; exact ⟨List.Perm.refl _, lt_irrefl _⟩
      · rintro ⟨h1, h2⟩
        have := desc_max (next_none.1 h) h1
        exact le_antisymm (not_lt.1 this) (not_lt.1 h2)
    | some l' =>
      rw [visits_some h, List.mem_cons, ih l' h]
      constructor
      · rintro (rfl | ⟨h1, h2⟩)
        · exact ⟨List.Perm.refl _, lt_irrefl _⟩
        · exact ⟨h1.trans (next_perm h), fun h3 => h2 (h3.trans (next_gt h))⟩
      · rintro ⟨h1, h2⟩
        rcases eq_or_lt_of_le (not_lt.1 h2) with h3 | h3
        · exact Or.inl h3.symm
        · exact Or.inr ⟨h1.trans (next_perm h).symm, next_least h h1 h3⟩

theorem visits_nodup (l : List ℕ) : (visits l).Nodup := by
  induction l using next_induction with
  | step l ih =>
    cases h : next l with
    | none => rw [visits_none h]; simp
    | some l' =>
      rw [visits_some h, List.nodup_cons]
      exact ⟨fun hm => (mem_visits.1 hm).2 (next_gt h), ih l' h⟩

theorem mem_visits_sorted {l p : List ℕ} (hl : l.Pairwise (· ≤ ·)) : p ∈ visits l ↔ p.Perm l := by
  rw [mem_visits]
  exact ⟨fun h => h.1, fun h => ⟨h, asc_min hl h⟩⟩

theorem visits_length {l : List ℕ} (hl : l.Pairwise (· ≤ ·)) (hn : l.Nodup) :
    (visits l).length = l.length.factorial := by
  rw [← List.length_permutations, ← List.toFinset_card_of_nodup (visits_nodup l),
    ← List.toFinset_card_of_nodup (List.nodup_permutations _ hn)]
  congr 1
  ext p
  simp [mem_visits_sorted hl]

theorem nextPermutation_some {l l' : List ℕ} (h : next l = some l') : nextPermutation l = (l', true) := by
  simp [nextPermutation, h]

theorem nextPermutation_none {l : List ℕ} (h : next l = none) :
    nextPermutation l = (l.insertionSort (· ≤ ·), false) := by
  simp only [nextPermutation, h, Prod.mk.injEq, and_true]
  have h1 : l.reverse.Pairwise (· ≤ ·) := List.pairwise_reverse.2 (next_none.1 h)
  refine List.Perm.eq_of_pairwise (fun a b _ _ => le_antisymm) h1 (List.pairwise_insertionSort _ _) ?_
  exact (List.reverse_perm l).trans (List.perm_insertionSort _ _).symm

end Rpwa.NextPerm

namespace Rpwa.Sym
open NextPerm

theorem permLoop_eq (l : List ℕ) : permLoop l = some (visits l) := by
  induction l using next_induction with
  | step l ih =>
    rw [permLoop]
    cases h : next l with
    | none => rw [nextPermutation_none h, visits_none h]; simp
    | some l' => rw [nextPermutation_some h, visits_some h]; simp [ih l' h]

/-- all choices of one visited order per species -/
def choices : List (List ℕ) → List (List (List ℕ))
  | [] => [[]]
  | g :: gs => (visits g).flatMap fun c => (choices gs).map fun cs => c :: cs

theorem sort_of_sorted {l : List ℕ} (h : l.Pairwise (· ≤ ·)) : l.insertionSort (· ≤ ·) = l :=
  List.Perm.eq_of_pairwise (fun a b _ _ => le_antisymm) (List.pairwise_insertionSort _ _) h
    (List.perm_insertionSort _ _)

theorem sort_congr {l l' : List ℕ} (h : l'.Perm l) :
    l'.insertionSort (· ≤ ·) = l.insertionSort (· ≤ ·) :=
  List.Perm.eq_of_pairwise (fun a b _ _ => le_antisymm) (List.pairwise_insertionSort _ _)
    (List.pairwise_insertionSort _ _)
    (((List.perm_insertionSort _ _).trans h).trans (List.perm_insertionSort _ _).symm)

theorem gen_eq (n : ℕ) (orig : List (List ℕ)) : ∀ (rest : List (List ℕ)),
    (∀ g ∈ rest, g.Pairwise (· ≤ ·)) → ∀ (pre : List (List ℕ)) (cur : List ℕ),
    genBoseSymTermMaps n orig pre cur rest = some (cur.insertionSort (· ≤ ·), rest,
      (visits cur).flatMap fun c => (choices rest).map fun cs => buildMap n orig (pre ++ c :: cs)) := by
  intro rest
  induction rest with
  | nil =>
    intro _ pre cur
    induction cur using next_induction with
    | step l ih =>
      rw [genBoseSymTermMaps]
      cases h : next l with
      | none => rw [nextPermutation_none h, visits_none h]; simp [choices]
      | some l' =>
        rw [nextPermutation_some h, visits_some h]
        simp only [Option.bind_eq_bind, Option.bind_some, if_true]
        rw [ih l' h]
        simp [choices, sort_congr (next_perm h)]
  | cons c rs ihr =>
    intro hs pre cur
    have ihr' := ihr (fun g hg => hs g (by simp [hg]))
    have hc := sort_of_sorted (hs c (by simp))
    induction cur using next_induction with
    | step l ih =>
      rw [genBoseSymTermMaps]
      simp only [ihr' (pre ++ [l]) c, Option.bind_eq_bind, Option.bind_some, hc]
      cases h : next l with
      | none =>
        rw [nextPermutation_none h, visits_none h]
        simp [choices, List.map_flatMap, Function.comp_def]
      | some l' =>
        rw [nextPermutation_some h, visits_some h]
        simp only [if_true]
        rw [ih l' h]
        simp [choices, List.map_flatMap, Function.comp_def, sort_congr (next_perm h)]

theorem mem_choices : ∀ {gs : List (List ℕ)} {cs : List (List ℕ)}, (∀ g ∈ gs, g.Pairwise (· ≤ ·)) →
    (cs ∈ choices gs ↔ List.Forall₂ List.Perm cs gs)
  | [], cs, _ => by simp [choices]
  | g :: gs, cs, h => by
    have ih := fun cs => @mem_choices gs cs (fun x hx => h x (by simp [hx]))
    simp only [choices, List.mem_flatMap, List.mem_map, mem_visits_sorted (h g (by simp)), ih]
    constructor
    · rintro ⟨c, hc, cs', h', rfl⟩
      exact List.Forall₂.cons hc h'
    · intro h'
      cases h' with
      | cons h1 h2 => exact ⟨_, h1, _, h2, rfl⟩

theorem choices_nodup : ∀ gs : List (List ℕ), (choices gs).Nodup
  | [] => by simp [choices]
  | g :: gs => by
    have ih := choices_nodup gs
    simp only [choices]
    rw [List.nodup_flatMap]
    refine ⟨fun c _ => ih.map (fun a b h => by simpa using h), ?_⟩
    refine (visits_nodup g).imp ?_
    intro a b hab
    simp only [Function.onFun, List.disjoint_left, List.mem_map, not_exists, not_and]
    rintro x ⟨cs, _, rfl⟩ cs' _ h
    simp only [List.cons.injEq] at h
    exact hab h.1.symm

theorem choices_length : ∀ {gs : List (List ℕ)}, (∀ g ∈ gs, g.Pairwise (· ≤ ·) ∧ g.Nodup) →
    (choices gs).length = (gs.map fun g => g.length.factorial).prod
  | [], _ => by simp [choices]
  | g :: gs, h => by
    have ih := @choices_length gs (fun x hx => h x (by simp [hx]))
    have h1 := h g (by simp)
    simp [choices, ih, visits_length h1.1 h1.2, List.length_flatMap, List.map_const',
      List.sum_replicate]

/-! ### `buildMap` -/

theorem foldl_set (f : ℕ → ℕ) : ∀ (es : List (ℕ × ℕ)) (v : List ℕ), (∀ e ∈ es, e.2 = f e.1) →
    ∀ i : ℕ, (es.foldl (fun v e => v.set e.1 e.2) v)[i]? =
      if i ∈ es.map Prod.fst ∧ i < v.length then some (f i) else v[i]?
  | [], v, _, i => by simp
  | e :: es, v, h, i => by
    rw [List.foldl_cons, foldl_set f es _ (fun e' he' => h e' (by simp [he']))]
    simp only [List.length_set, List.map_cons, List.mem_cons, List.getElem?_set]
    have h0 := h e (by simp)
    by_cases h1 : i ∈ es.map Prod.fst ∧ i < v.length
    · rw [if_pos h1, if_pos ⟨Or.inr h1.1, h1.2⟩]
    · rw [if_neg h1]
      by_cases h2 : e.1 = i
      · subst h2
        by_cases h3 : e.1 < v.length
        · simp [h3, h0]
        · simp [h3]
      · rw [if_neg h2]
        rw [if_neg]
        rintro ⟨h3 | h3, h4⟩
        · exact h2 h3.symm
        · exact h1 ⟨h3, h4⟩

theorem zip_map_pairs (f : ℕ → ℕ) (gs : List (List ℕ)) :
    ((gs.zip (gs.map fun g => g.map f)).flatMap fun g => g.1.zip g.2) = gs.flatten.map fun i => (i, f i) := by
  induction gs with
  | nil => rfl
  | cons g gs ih =>
    simp only [List.map_cons, List.zip_cons_cons, List.flatMap_cons, ih, List.flatten_cons,
      List.map_append]
    congr 1
    induction g with
    | nil => rfl
    | cons a g ih => simpa using ih

/-- Overwriting with `new = orig` mapped by `f` yields the value table of `f`. -/
theorem buildMap_map (n : ℕ) (gs : List (List ℕ)) (f : ℕ → ℕ) (h : gs.flatten.Perm (List.range n)) :
    buildMap n gs (gs.map fun g => g.map f) = (List.range n).map f := by
  apply List.ext_getElem?
  intro i
  unfold buildMap
  rw [zip_map_pairs, foldl_set f _ _ (by
    intro e he
    obtain ⟨j, -, rfl⟩ := List.mem_map.1 he
    rfl)]
  have h1 : i ∈ gs.flatten ↔ i < n := by rw [h.mem_iff]; simp
  simp only [List.map_map, Function.comp_def, List.map_id', List.length_replicate]
  by_cases hi : i < n
  · rw [if_pos ⟨h1.2 hi, hi⟩]; simp [hi]
  · rw [if_neg (fun h => hi h.2)]; simp [hi]

/-- every reordering of disjoint groups is given by a function on the indices -/
theorem exists_fun : ∀ (gs cs : List (List ℕ)), gs.flatten.Nodup → List.Forall₂ List.Perm cs gs →
    ∃ f : ℕ → ℕ, cs = gs.map fun g => g.map f
  | [], _, _, h => by cases h; exact ⟨id, rfl⟩
  | g :: gs, _, hn, h => by
    cases h with
    | @cons c _ cs' _ h1 h2 =>
      rw [List.flatten_cons, List.nodup_append] at hn
      obtain ⟨f, hf⟩ := exists_fun gs cs' hn.2.1 h2
      classical
      refine ⟨fun i => if i ∈ g then c.getD (g.idxOf i) 0 else f i, ?_⟩
      simp only [List.map_cons, List.cons.injEq]
      constructor
      · apply List.ext_getElem?
        intro k
        have hl := h1.length_eq
        by_cases hk : k < g.length
        · have hk' : k < c.length := by omega
          have hi : g.idxOf g[k] = k := hn.1.idxOf_getElem k hk
          simp [hk, hk', hi]
        · have hk' : ¬ k < c.length := by omega
          simp [hk, hk']
      · rw [hf]
        apply List.map_congr_left
        intro g' hg'
        apply List.map_congr_left
        intro i hi
        have : i ∉ g := fun h => hn.2.2 i h i (List.mem_flatten.2 ⟨g', hg', hi⟩) rfl
        simp [this]

section
variable {α : Type} [LinearOrder α]

theorem mem_positions {names : List α} {nm : α} {i : ℕ} :
    i ∈ positions names nm ↔ names[i]? = some nm := by
  simp only [positions, List.mem_filter, List.mem_range, decide_eq_true_eq, and_iff_right_iff_imp]
  intro h
  exact (List.getElem?_eq_some_iff.1 h).1

theorem positions_sorted (names : List α) (nm : α) : (positions names nm).Pairwise (· ≤ ·) :=
  (List.pairwise_le_range).filter _

theorem positions_nodup (names : List α) (nm : α) : (positions names nm).Nodup :=
  (List.nodup_range).filter _

theorem positions_length (names : List α) (nm : α) : (positions names nm).length = names.count nm := by
  induction names using List.reverseRecOn with
  | nil => rfl
  | append_singleton l a ih =>
    have : positions (l ++ [a]) nm = positions l nm ++ if a = nm then [l.length] else [] := by
      unfold positions
      rw [List.length_append, List.length_singleton, List.range_succ, List.filter_append]
      congr 1
      · apply List.filter_congr
        intro i hi
        simp only [List.mem_range] at hi
        rw [List.getElem?_append_left hi]
      · by_cases h : a = nm <;> simp [h]
    rw [this, List.length_append, ih, List.count_append]
    by_cases h : a = nm <;> simp [h]

theorem mem_keys {names : List α} {nm : α} : nm ∈ keys names ↔ nm ∈ names := by
  simp [keys]

theorem keys_nodup (names : List α) : (keys names).Nodup :=
  (List.perm_insertionSort _ _).nodup_iff.2 (List.nodup_dedup names)

theorem groups_flatten (names : List α) : (groups names).flatten.Perm (List.range names.length) := by
  have hn : (groups names).flatten.Nodup := by
    rw [List.nodup_flatten]
    constructor
    · intro g hg
      simp only [groups, List.mem_map] at hg
      obtain ⟨nm, -, rfl⟩ := hg
      exact positions_nodup _ _
    · rw [groups, List.pairwise_map]
      refine (keys_nodup names).imp ?_
      intro a b hab
      rw [List.disjoint_left]
      intro i h1 h2
      rw [mem_positions] at h1 h2
      rw [h1] at h2
      exact hab (by simpa using h2)
  rw [List.perm_ext_iff_of_nodup hn List.nodup_range]
  intro i
  simp only [groups, List.mem_flatten, List.mem_map, exists_exists_and_eq_and, mem_positions,
    List.mem_range, mem_keys]
  constructor
  · rintro ⟨nm, -, h⟩; exact (List.getElem?_eq_some_iff.1 h).1
  · intro h; exact ⟨names[i], List.getElem_mem h, by simp⟩

theorem groups_sorted {names : List α} : ∀ g ∈ groups names, g.Pairwise (· ≤ ·) ∧ g.Nodup := by
  intro g hg
  simp only [groups, List.mem_map] at hg
  obtain ⟨nm, -, rfl⟩ := hg
  exact ⟨positions_sorted _ _, positions_nodup _ _⟩

end

end Rpwa.Sym

import Verif.Lemmas.Outcome
import Verif.Spec.KeyExpand
/-!
# C59: key files that describe several waves
-/
namespace Rpwa.KeyFile

open Rpwa.Particle Rpwa.KeyFile.Spec

theorem choices_group_expand {g e : Members} (h : g.lookup "expand" = some (.group e)) :
    choices (.group g) = (binsOf e).flatMap fun b => (choicesMembers true g).map fun g' => .group (g' ++ [(nameOf e, b)]) := by
  unfold choices
  rw [h]

theorem choices_group_plain {g : Members} (h : expandGroup g = none) :
    choices (.group g) = (choicesMembers false g).map .group := by
  unfold choices
  split
  · rename_i e he
    unfold expandGroup at h
    rw [he] at h
    cases h
  · rfl

theorem expandGroup_eq {g e : Members} (h : g.lookup "expand" = some (.group e)) : expandGroup g = some e := by
  unfold expandGroup
  rw [h]

mutual
theorem choices_none : ∀ s, findExpand s = none → choices s = [s]
  | .group g, h => by
    unfold findExpand at h
    split at h
    · cases h
    · rename_i hn
      rw [choices_group_plain hn, choicesMembers_none g (by simpa using h)]
      rfl
  | .list l, h => by
    unfold findExpand at h
    unfold choices
    rw [choicesElements_none l (by simpa using h)]
    rfl
  | .int _, _ => by simp [choices]
  | .float _, _ => by simp [choices]
  | .str _, _ => by simp [choices]
  | .bool _, _ => by simp [choices]
theorem choicesMembers_none : ∀ g, findMembers g = none → choicesMembers false g = [g]
  | [], _ => by simp [choicesMembers]
  | (n, s) :: r, h => by
    unfold findMembers at h
    split at h
    · cases h
    · rename_i hs
      unfold choicesMembers
      rw [choices_none s hs, choicesMembers_none r (by simpa using h)]
      simp
theorem choicesElements_none : ∀ l, findElements l = none → choicesElements l = [l]
  | [], _ => by simp [choicesElements]
  | s :: r, h => by
    unfold findElements at h
    split at h
    · cases h
    · rename_i hs
      unfold choicesElements
      rw [choices_none s hs, choicesElements_none r (by simpa using h)]
      simp
end

/-- leaving out the `expand` group = removing it -/
theorem choicesMembers_skip : ∀ (g : Members), (g.map Prod.fst).Nodup → choicesMembers true g = choicesMembers false (removeMember g "expand")
  | [], _ => by simp [choicesMembers, removeMember]
  | (n, s) :: r, h => by
    simp only [List.map_cons, List.nodup_cons] at h
    by_cases hn : n = "expand"
    · subst hn
      have h1 : removeMember (("expand", s) :: r) "expand" = r := by simp [removeMember]
      rw [h1]
      have h2 : choicesMembers true (("expand", s) :: r) = choicesMembers true r := by
        conv_lhs => unfold choicesMembers
        simp
      rw [h2, choicesMembers_skip r h.2]
      have : removeMember r "expand" = r := by
        unfold removeMember
        rw [List.eraseP_of_forall_not]
        intro e he
        simp only [beq_iff_eq]
        intro hc
        exact h.1 (List.mem_map.mpr ⟨e, he, hc⟩)
      rw [this]
    · have h1 : removeMember ((n, s) :: r) "expand" = (n, s) :: removeMember r "expand" := by
        unfold removeMember
        rw [List.eraseP_cons_of_neg (by simpa using hn)]
      rw [h1]
      unfold choicesMembers
      rw [choicesMembers_skip r h.2]
      simp [hn]

theorem choicesMembers_append : ∀ (g : Members) (n : String) (s : Setting), choices s = [s] →
    choicesMembers false (g ++ [(n, s)]) = (choicesMembers false g).map (· ++ [(n, s)])
  | [], n, s, h => by simp [choicesMembers, h]
  | (m, t) :: r, n, s, h => by
    simp only [List.cons_append]
    unfold choicesMembers
    rw [choicesMembers_append r n s h]
    simp [List.map_flatMap, Function.comp_def]

theorem binsOf_list {e : Members} : ∀ b ∈ binsOf e, ∃ lo hi, b = binSetting lo hi := by
  intro b hb
  unfold binsOf at hb
  split at hb
  · split at hb
    · obtain ⟨x, -, rfl⟩ := List.mem_map.mp hb
      exact ⟨x.1, x.2, rfl⟩
    · simp at hb
  · simp at hb

theorem binsOf_choices {e : Members} : ∀ b ∈ binsOf e, choices b = [b] := by
  intro b hb
  obtain ⟨lo, hi, rfl⟩ := binsOf_list b hb
  simp [binSetting, choices, choicesElements]

theorem lookup_remove : ∀ (g : Members), (g.map Prod.fst).Nodup → (removeMember g "expand").lookup "expand" = none
  | [], _ => rfl
  | (n, s) :: r, h => by
    simp only [List.map_cons, List.nodup_cons] at h
    by_cases hn : n = "expand"
    · subst hn
      have h1 : removeMember (("expand", s) :: r) "expand" = r := by simp [removeMember]
      rw [h1, List.lookup_eq_none_iff]
      intro p hp
      simp only [bne_iff_ne, ne_eq, beq_eq_false_iff_ne]
      intro hc
      exact h.1 (List.mem_map.mpr ⟨p, hp, hc.symm⟩)
    · have h1 : removeMember ((n, s) :: r) "expand" = (n, s) :: removeMember r "expand" := by
        unfold removeMember
        rw [List.eraseP_cons_of_neg (by simpa using hn)]
      rw [h1, List.lookup_cons]
      have hb : ("expand" == n) = false := by simpa using fun h => hn h.symm
      rw [hb]
      exact lookup_remove r h.2

/-- the group with its `expand` group replaced by a bin has no `expand` group of its own -/
theorem expandGroup_step {g : Members} (h : (g.map Prod.fst).Nodup) (n : String) (lo hi : ℚ) :
    expandGroup (removeMember g "expand" ++ [(n, binSetting lo hi)]) = none := by
  unfold expandGroup
  rw [List.lookup_append, lookup_remove g h, Option.none_or]
  by_cases hn : n = "expand"
  · subst hn
    simp [binSetting]
  · have hb : ("expand" == n) = false := by simpa using fun h => hn h.symm
    simp [List.lookup_cons, hb]

theorem choices_step {g e : Members} (hn : (g.map Prod.fst).Nodup) (he : g.lookup "expand" = some (.group e)) :
    choices (.group g) = (binsOf e).flatMap fun b => choices (.group (removeMember g "expand" ++ [(nameOf e, b)])) := by
  rw [choices_group_expand he]
  apply List.flatMap_congr
  intro b hb
  obtain ⟨lo, hi, rfl⟩ := binsOf_list b hb
  rw [choices_group_plain (expandGroup_step hn _ lo hi), choicesMembers_append _ _ _ (binsOf_choices _ hb),
    choicesMembers_skip g hn, List.map_map]
  rfl

mutual
/-- the first `expand` group found is the one whose bins vary slowest -/
theorem choices_found : ∀ s, Expandable s → ∀ {f : Found Setting}, findExpand s = some f →
    choices s = (binsOf f.spec).flatMap fun b => choices (f.plug (removeMember f.parent "expand" ++ [(nameOf f.spec, b)]))
  | .group g, hs, f, h => by
    unfold Expandable at hs
    unfold findExpand at h
    split at h
    · rename_i e he
      cases h
      exact choices_step hs.1 (expandGroup_some he)
    · rename_i hn
      rw [Option.map_eq_some_iff] at h
      obtain ⟨f', h', rfl⟩ := h
      rw [choices_group_plain hn, choicesMembers_found g hs.2.2 h', List.map_flatMap]
      apply List.flatMap_congr
      intro b _
      dsimp only
      refine (choices_group_plain ?_).symm
      exact (findMembers_plain g hn h' _)
  | .list l, hs, f, h => by
    unfold Expandable at hs
    unfold findExpand at h
    rw [Option.map_eq_some_iff] at h
    obtain ⟨f', h', rfl⟩ := h
    unfold choices
    rw [choicesElements_found l hs h', List.map_flatMap]
  | .int _, _, f, h => by simp [findExpand] at h
  | .float _, _, f, h => by simp [findExpand] at h
  | .str _, _, f, h => by simp [findExpand] at h
  | .bool _, _, f, h => by simp [findExpand] at h
theorem choicesMembers_found : ∀ g, ExpandableMembers g → ∀ {f : Found Members}, findMembers g = some f →
    choicesMembers false g =
      (binsOf f.spec).flatMap fun b => choicesMembers false (f.plug (removeMember f.parent "expand" ++ [(nameOf f.spec, b)]))
  | [], _, f, h => by simp [findMembers] at h
  | (n, s) :: r, hs, f, h => by
    unfold ExpandableMembers at hs
    unfold findMembers at h
    split at h
    · rename_i f' he
      cases h
      conv_lhs => unfold choicesMembers
      rw [choices_found s hs.1 he]
      simp only [Bool.false_and, Bool.false_eq_true, if_false, List.flatMap_assoc]
      apply List.flatMap_congr
      intro b _
      conv_rhs => unfold choicesMembers
      simp
    · rename_i hn
      rw [Option.map_eq_some_iff] at h
      obtain ⟨f', h', rfl⟩ := h
      conv_lhs => unfold choicesMembers
      rw [choices_none s hn, choicesMembers_found r hs.2 h']
      simp only [Bool.false_and, Bool.false_eq_true, if_false, List.flatMap_cons, List.flatMap_nil, List.append_nil, List.map_flatMap]
      apply List.flatMap_congr
      intro b _
      conv_rhs => unfold choicesMembers
      rw [choices_none s hn]
      simp
theorem choicesElements_found : ∀ l, ExpandableElements l → ∀ {f : Found (List Setting)}, findElements l = some f →
    choicesElements l =
      (binsOf f.spec).flatMap fun b => choicesElements (f.plug (removeMember f.parent "expand" ++ [(nameOf f.spec, b)]))
  | [], _, f, h => by simp [findElements] at h
  | s :: r, hs, f, h => by
    unfold ExpandableElements at hs
    unfold findElements at h
    split at h
    · rename_i f' he
      cases h
      conv_lhs => unfold choicesElements
      rw [choices_found s hs.1 he]
      simp only [List.flatMap_assoc]
      apply List.flatMap_congr
      intro b _
      conv_rhs => unfold choicesElements
    · rename_i hn
      rw [Option.map_eq_some_iff] at h
      obtain ⟨f', h', rfl⟩ := h
      conv_lhs => unfold choicesElements
      rw [choices_none s hn, choicesElements_found r hs.2 h']
      simp only [List.flatMap_cons, List.flatMap_nil, List.append_nil, List.map_flatMap]
      apply List.flatMap_congr
      intro b _
      conv_rhs => unfold choicesElements
      rw [choices_none s hn]
      simp
/-- replacing something below a member does not make the member an `expand` group of the group -/
theorem findMembers_plain : ∀ g, expandGroup g = none → ∀ {f : Found Members}, findMembers g = some f → ∀ x,
    expandGroup (f.plug x) = none
  | [], _, f, h, _ => by simp [findMembers] at h
  | (n, s) :: r, hg, f, h, x => by
    unfold findMembers at h
    unfold expandGroup at hg
    rw [List.lookup_cons] at hg
    by_cases hn : n = "expand"
    · subst hn
      simp only [beq_self_eq_true] at hg
      split at h
      · rename_i f' he
        cases h
        unfold expandGroup
        simp only [List.lookup_cons, beq_self_eq_true]
        cases s with
        | group g => simp at hg
        | list l =>
          unfold findExpand at he
          rw [Option.map_eq_some_iff] at he
          obtain ⟨f'', -, rfl⟩ := he
          rfl
        | int _ => simp [findExpand] at he
        | float _ => simp [findExpand] at he
        | str _ => simp [findExpand] at he
        | bool _ => simp [findExpand] at he
      · rw [Option.map_eq_some_iff] at h
        obtain ⟨f', h', rfl⟩ := h
        unfold expandGroup
        simp only [List.lookup_cons, beq_self_eq_true]
        exact hg
    · have hb : ("expand" == n) = false := by simpa using fun h => hn h.symm
      rw [hb] at hg
      split at h
      · cases h
        unfold expandGroup
        rw [List.lookup_cons, hb]
        exact hg
      · rw [Option.map_eq_some_iff] at h
        obtain ⟨f', h', rfl⟩ := h
        unfold expandGroup
        rw [List.lookup_cons, hb]
        exact findMembers_plain r hg h' x
end

/-! ### rounding of numbers -/

theorem lookup_reread (prec : ℚ → ℚ) (n : String) : ∀ g : Members, (rereadMembers prec g).lookup n = (g.lookup n).map (reread prec)
  | [] => rfl
  | (m, s) :: r => by
    simp only [rereadMembers, List.lookup_cons]
    cases n == m
    · exact lookup_reread prec n r
    · rfl

theorem keys_reread (prec : ℚ → ℚ) : ∀ g : Members, (rereadMembers prec g).map Prod.fst = g.map Prod.fst
  | [] => rfl
  | (m, s) :: r => by simp only [rereadMembers, List.map_cons, keys_reread prec r]

theorem rereadMembers_append (prec : ℚ → ℚ) : ∀ g h : Members,
    rereadMembers prec (g ++ h) = rereadMembers prec g ++ rereadMembers prec h
  | [], _ => rfl
  | (m, s) :: r, h => by simp only [rereadMembers, List.cons_append, rereadMembers_append prec r h]

theorem edges_reread (prec : ℚ → ℚ) : ∀ l : List Setting, edges (rereadElements prec l) = (edges l).map prec
  | [] => rfl
  | s :: r => by
    have ih := edges_reread prec r
    unfold edges at ih ⊢
    cases s <;> simp [rereadElements, reread, ih]

theorem nameOf_reread (prec : ℚ → ℚ) (e : Members) : nameOf (rereadMembers prec e) = nameOf e := by
  unfold nameOf
  rw [lookup_reread]
  cases e.lookup "name" with
  | none => rfl
  | some s => cases s <;> rfl

theorem binsOf_reread (prec : ℚ → ℚ) (e : Members) : binsOf (rereadMembers prec e) = (binsOf e).map (reread prec) := by
  unfold binsOf
  rw [lookup_reread, lookup_reread]
  cases e.lookup "type" with
  | none => rfl
  | some t =>
    cases t with
    | str t =>
      cases e.lookup "bins" with
      | none => rfl
      | some b =>
        cases b with
        | list l =>
          simp only [Option.map_some, reread]
          split_ifs
          · rw [edges_reread, ← List.map_tail, List.zip_map, List.map_map, List.map_map]
            rfl
          · rfl
        | _ => rfl
    | _ => rfl

mutual
theorem choices_reread (prec : ℚ → ℚ) : ∀ s, choices (reread prec s) = (choices s).map (reread prec)
  | .group g => by
    unfold reread
    by_cases he : ∃ e, g.lookup "expand" = some (.group e)
    · obtain ⟨e, he⟩ := he
      have he' : (rereadMembers prec g).lookup "expand" = some (.group (rereadMembers prec e)) := by
        rw [lookup_reread, he]
        rfl
      rw [choices_group_expand he, choices_group_expand he', binsOf_reread, nameOf_reread, choicesMembers_reread prec true g,
        List.flatMap_map, List.map_flatMap]
      apply List.flatMap_congr
      intro b _
      rw [List.map_map, List.map_map]
      apply List.map_congr_left
      intro g' _
      simp only [Function.comp, reread, rereadMembers_append, rereadMembers]
    · have hn : expandGroup g = none := by
        unfold expandGroup
        split
        · rename_i e h; exact (he ⟨e, h⟩).elim
        · rfl
      have hn' : expandGroup (rereadMembers prec g) = none := by
        unfold expandGroup at hn ⊢
        rw [lookup_reread]
        cases h : g.lookup "expand" with
        | none => rfl
        | some s =>
          cases s with
          | group e => exact (he ⟨e, h⟩).elim
          | _ => rfl
      rw [choices_group_plain hn, choices_group_plain hn', choicesMembers_reread prec false g, List.map_map, List.map_map]
      apply List.map_congr_left
      intro g' _
      simp only [Function.comp, reread]
  | .list l => by
    unfold reread choices
    rw [choicesElements_reread prec l, List.map_map, List.map_map]
    apply List.map_congr_left
    intro l' _
    simp only [Function.comp, reread]
  | .int _ => by simp [choices, reread]
  | .float _ => by simp [choices, reread]
  | .str _ => by simp [choices, reread]
  | .bool _ => by simp [choices, reread]
theorem choicesMembers_reread (prec : ℚ → ℚ) (skip : Bool) : ∀ g,
    choicesMembers skip (rereadMembers prec g) = (choicesMembers skip g).map (rereadMembers prec)
  | [] => by simp [choicesMembers, rereadMembers]
  | (n, s) :: r => by
    unfold rereadMembers choicesMembers
    rw [choices_reread prec s, choicesMembers_reread prec skip r]
    split_ifs
    · rfl
    · rw [List.flatMap_map, List.map_flatMap]
      apply List.flatMap_congr
      intro s' _
      rw [List.map_map, List.map_map]
      apply List.map_congr_left
      intro g' _
      simp only [Function.comp, rereadMembers]
theorem choicesElements_reread (prec : ℚ → ℚ) : ∀ l,
    choicesElements (rereadElements prec l) = (choicesElements l).map (rereadElements prec)
  | [] => by simp [choicesElements, rereadElements]
  | s :: r => by
    unfold rereadElements choicesElements
    rw [choices_reread prec s, choicesElements_reread prec r, List.flatMap_map, List.map_flatMap]
    apply List.flatMap_congr
    intro s' _
    rw [List.map_map, List.map_map]
    apply List.map_congr_left
    intro g' _
    simp only [Function.comp, rereadElements]
end

mutual
theorem reread_reread {prec : ℚ → ℚ} (hp : ∀ x, prec (prec x) = prec x) : ∀ s, reread prec (reread prec s) = reread prec s
  | .group g => by simp only [reread, rereadMembers_rereadMembers hp g]
  | .list l => by simp only [reread, rereadElements_rereadElements hp l]
  | .int _ => rfl
  | .float x => by simp only [reread, hp x]
  | .str _ => rfl
  | .bool _ => rfl
theorem rereadMembers_rereadMembers {prec : ℚ → ℚ} (hp : ∀ x, prec (prec x) = prec x) : ∀ g,
    rereadMembers prec (rereadMembers prec g) = rereadMembers prec g
  | [] => rfl
  | (n, s) :: r => by simp only [rereadMembers, reread_reread hp s, rereadMembers_rereadMembers hp r]
theorem rereadElements_rereadElements {prec : ℚ → ℚ} (hp : ∀ x, prec (prec x) = prec x) : ∀ l,
    rereadElements prec (rereadElements prec l) = rereadElements prec l
  | [] => rfl
  | s :: r => by simp only [rereadElements, reread_reread hp s, rereadElements_rereadElements hp r]
end

theorem usable_reread {prec : ℚ → ℚ} {g e : Members} (h : Usable g e) : Usable (rereadMembers prec g) (rereadMembers prec e) := by
  intro ht
  have ht' : e.lookup "type" = some (.str "binning".toList) := by
    rw [lookup_reread] at ht
    cases h : e.lookup "type" with
    | none => rw [h] at ht; cases ht
    | some s =>
      rw [h] at ht
      cases s <;> simp [reread] at ht ⊢
      exact ht
  obtain ⟨⟨s, h1, h2, h3⟩, x, xs, h4⟩ := h ht'
  refine ⟨⟨s, by rw [lookup_reread, h1]; rfl, h2, ?_⟩, prec x, xs.map prec, ?_⟩
  · rcases h3 with h3 | h3
    · exact Or.inl h3
    · exact Or.inr (by rw [lookup_reread, h3]; rfl)
  · rw [lookup_reread, h4]
    have : ∀ l : List ℚ, rereadElements prec (l.map .float) = (l.map prec).map .float := by
      intro l
      induction l with
      | nil => rfl
      | cons a l ih => simp only [List.map_cons, rereadElements, reread, ih]
    simp only [Option.map_some, reread]
    rw [this]
    rfl

mutual
theorem expandable_reread {prec : ℚ → ℚ} : ∀ s, Expandable s → Expandable (reread prec s)
  | .group g, h => by
    unfold Expandable at h
    unfold reread Expandable
    refine ⟨by rw [keys_reread]; exact h.1, ?_, expandableMembers_reread g h.2.2⟩
    intro e he
    rw [lookup_reread, Option.map_eq_some_iff] at he
    obtain ⟨s, h1, h2⟩ := he
    cases s with
    | group e' =>
      simp only [reread, Setting.group.injEq] at h2
      subst h2
      exact usable_reread (h.2.1 e' h1)
    | _ => simp [reread] at h2
  | .list l, h => by
    unfold Expandable at h
    unfold reread Expandable
    exact expandableElements_reread l h
  | .int _, _ => by simp [reread, Expandable]
  | .float _, _ => by simp [reread, Expandable]
  | .str _, _ => by simp [reread, Expandable]
  | .bool _, _ => by simp [reread, Expandable]
theorem expandableMembers_reread {prec : ℚ → ℚ} : ∀ g, ExpandableMembers g → ExpandableMembers (rereadMembers prec g)
  | [], _ => by simp [rereadMembers, ExpandableMembers]
  | (n, s) :: r, h => by
    unfold ExpandableMembers at h
    unfold rereadMembers ExpandableMembers
    exact ⟨expandable_reread s h.1, expandableMembers_reread r h.2⟩
theorem expandableElements_reread {prec : ℚ → ℚ} : ∀ l, ExpandableElements l → ExpandableElements (rereadElements prec l)
  | [], _ => by simp [rereadElements, ExpandableElements]
  | s :: r, h => by
    unfold ExpandableElements at h
    unfold rereadElements ExpandableElements
    exact ⟨expandable_reread s h.1, expandableElements_reread r h.2⟩
end

mutual
theorem expandable_found : ∀ s, Expandable s → ∀ {f : Found Setting}, findExpand s = some f →
    Expandable (.group f.parent) ∧ ∀ x, Expandable (.group x) → Expandable (f.plug x)
  | .group g, hs, f, h => by
    unfold findExpand at h
    split at h
    · cases h
      exact ⟨hs, fun x hx => hx⟩
    · rename_i hn
      unfold Expandable at hs
      rw [Option.map_eq_some_iff] at h
      obtain ⟨f', h', rfl⟩ := h
      obtain ⟨h1, h2⟩ := expandableMembers_found g hs.2.2 h'
      refine ⟨h1, fun x hx => ?_⟩
      unfold Expandable
      refine ⟨by rw [(findMembers_spec g h').2.2 x]; exact hs.1, ?_, h2 x hx⟩
      intro e he
      have := findMembers_plain g hn h' x
      rw [expandGroup_eq he] at this
      cases this
  | .list l, hs, f, h => by
    unfold findExpand at h
    unfold Expandable at hs
    rw [Option.map_eq_some_iff] at h
    obtain ⟨f', h', rfl⟩ := h
    obtain ⟨h1, h2⟩ := expandableElements_found l hs h'
    exact ⟨h1, fun x hx => by unfold Expandable; exact h2 x hx⟩
  | .int _, _, f, h => by simp [findExpand] at h
  | .float _, _, f, h => by simp [findExpand] at h
  | .str _, _, f, h => by simp [findExpand] at h
  | .bool _, _, f, h => by simp [findExpand] at h
theorem expandableMembers_found : ∀ g, ExpandableMembers g → ∀ {f : Found Members}, findMembers g = some f →
    Expandable (.group f.parent) ∧ ∀ x, Expandable (.group x) → ExpandableMembers (f.plug x)
  | [], _, f, h => by simp [findMembers] at h
  | (n, s) :: r, hs, f, h => by
    unfold findMembers at h
    unfold ExpandableMembers at hs
    split at h
    · rename_i f' he
      cases h
      obtain ⟨h1, h2⟩ := expandable_found s hs.1 he
      exact ⟨h1, fun x hx => by unfold ExpandableMembers; exact ⟨h2 x hx, hs.2⟩⟩
    · rw [Option.map_eq_some_iff] at h
      obtain ⟨f', h', rfl⟩ := h
      obtain ⟨h1, h2⟩ := expandableMembers_found r hs.2 h'
      exact ⟨h1, fun x hx => by unfold ExpandableMembers; exact ⟨hs.1, h2 x hx⟩⟩
theorem expandableElements_found : ∀ l, ExpandableElements l → ∀ {f : Found (List Setting)}, findElements l = some f →
    Expandable (.group f.parent) ∧ ∀ x, Expandable (.group x) → ExpandableElements (f.plug x)
  | [], _, f, h => by simp [findElements] at h
  | s :: r, hs, f, h => by
    unfold findElements at h
    unfold ExpandableElements at hs
    split at h
    · rename_i f' he
      cases h
      obtain ⟨h1, h2⟩ := expandable_found s hs.1 he
      exact ⟨h1, fun x hx => by unfold ExpandableElements; exact ⟨h2 x hx, hs.2⟩⟩
    · rw [Option.map_eq_some_iff] at h
      obtain ⟨f', h', rfl⟩ := h
      obtain ⟨h1, h2⟩ := expandableElements_found r hs.2 h'
      exact ⟨h1, fun x hx => by unfold ExpandableElements; exact ⟨hs.1, h2 x hx⟩⟩
end

theorem expandableMembers_iff : ∀ g, ExpandableMembers g ↔ ∀ p ∈ g, Expandable p.2
  | [] => by simp [ExpandableMembers]
  | (n, s) :: r => by
    unfold ExpandableMembers
    rw [expandableMembers_iff r]
    simp

theorem lookup_none_keys {g : Members} {n : String} (h : g.lookup n = none) : n ∉ g.map Prod.fst := by
  rw [List.lookup_eq_none_iff] at h
  intro hm
  obtain ⟨p, hp, rfl⟩ := List.mem_map.mp hm
  simpa using h p hp

theorem keys_lookup_none {g : Members} {n : String} (h : n ∉ g.map Prod.fst) : g.lookup n = none := by
  rw [List.lookup_eq_none_iff]
  intro p hp
  simp only [bne_iff_ne, ne_eq]
  rintro rfl
  exact h (List.mem_map_of_mem hp)

theorem remove_sublist (g : Members) (n : String) : (removeMember g n).Sublist g := List.eraseP_sublist

/-- the name of the bin is not taken once the `expand` group is removed -/
theorem name_free {g : Members} (hn : (g.map Prod.fst).Nodup) {n : String} (h : n = "expand" ∨ g.lookup n = none) :
    (removeMember g "expand").lookup n = none := by
  rcases h with rfl | h
  · exact lookup_remove g hn
  · apply keys_lookup_none
    intro hm
    exact lookup_none_keys h (((remove_sublist g "expand").map Prod.fst).subset hm)

theorem expandable_step {g : Members} (hg : Expandable (.group g)) {n : String} (h : n = "expand" ∨ g.lookup n = none) (lo hi : ℚ) :
    Expandable (.group (removeMember g "expand" ++ [(n, binSetting lo hi)])) := by
  unfold Expandable at hg ⊢
  refine ⟨?_, ?_, ?_⟩
  · rw [List.map_append, List.nodup_append]
    refine ⟨hg.1.sublist ((remove_sublist g "expand").map Prod.fst), by simp, ?_⟩
    intro a ha b hb
    simp only [List.map_cons, List.map_nil, List.mem_singleton] at hb
    subst hb
    rintro rfl
    exact lookup_none_keys (name_free hg.1 h) ha
  · intro e he
    have := expandGroup_step hg.1 n lo hi
    rw [expandGroup_eq he] at this
    cases this
  · rw [expandableMembers_iff]
    intro p hp
    rcases List.mem_append.mp hp with hp | hp
    · exact (expandableMembers_iff g).mp hg.2.2 p ((remove_sublist g "expand").subset hp)
    · simp only [List.mem_singleton] at hp
      subst hp
      simp [binSetting, Expandable, ExpandableElements]

/-! ### the waves of a file -/

theorem textOf_iff {e : Members} {n : String} {t : Name} (ht : t ≠ []) : textOf e n = t ↔ e.lookup n = some (.str t) := by
  unfold textOf Setting.lookupStr Setting.member
  dsimp only
  cases e.lookup n with
  | none => simp [ht.symm]
  | some s => cases s <;> simp [ht.symm]

theorem getBinning_floats {e : Members} {x : ℚ} {xs : List ℚ} (h : e.lookup "bins" = some (.list ((x :: xs).map .float))) :
    getBinning e = .ok (x :: xs) := by
  unfold getBinning findList Setting.member
  dsimp only
  rw [h]
  simp only [List.map_cons, reduceCtorEq, if_false]
  have : ∀ l : List ℚ, (l.map Setting.float).mapM (fun s => match s with
    | .float x => (Outcome.ok x : Outcome ℚ)
    | _ => .terminate) = .ok l := by
    intro l
    induction l with
    | nil => rfl
    | cons a l ih => rw [List.map_cons, List.mapM_cons, ih]; rfl
  exact this (x :: xs)

theorem binsOf_floats {e : Members} {l : List ℚ} (ht : e.lookup "type" = some (.str "binning".toList))
    (h : e.lookup "bins" = some (.list (l.map .float))) :
    binsOf e = (l.zip l.tail).map fun b => binSetting b.1 b.2 := by
  have he : ∀ l : List ℚ, edges (l.map .float) = l := by
    intro l
    unfold edges
    induction l with
    | nil => rfl
    | cons a l ih => simp
  unfold binsOf
  rw [ht, h]
  simp only [he, if_true]
  rfl

theorem expand_none {prec : ℚ → ℚ} {s : Setting} (h : findExpand s = none) : expand prec s = .ok [s] := by
  rw [expand]
  split
  · rfl
  · rename_i f hf; rw [h] at hf; cases hf

theorem expand_other {prec : ℚ → ℚ} {s : Setting} {f : Found Setting} (h : findExpand s = some f)
    (ht : textOf f.spec "type" ≠ "binning".toList) : expand prec s = .ok [] := by
  rw [expand]
  split
  · rename_i hf; rw [h] at hf; cases hf
  · rename_i f' hf
    rw [h] at hf
    cases hf
    exact if_neg ht

theorem expand_binning {prec : ℚ → ℚ} {s : Setting} {f : Found Setting} (h : findExpand s = some f)
    (ht : textOf f.spec "type" = "binning".toList) {x : ℚ} {xs : List ℚ} (hb : getBinning f.spec = .ok (x :: xs))
    (ha : validName (textOf f.spec "name") = true ∧
      (removeMember f.parent "expand").lookup (String.ofList (textOf f.spec "name")) = none) :
    expand prec s = (((x :: xs).zip xs).mapM fun b => expand prec (reread prec (f.plug (removeMember f.parent "expand" ++
      [(String.ofList (textOf f.spec "name"), binSetting b.1 b.2)])))).bind fun parts => .ok parts.flatten := by
  have hadd : ∀ t, addMember (removeMember f.parent "expand") (textOf f.spec "name") t =
      .ok (removeMember f.parent "expand" ++ [(String.ofList (textOf f.spec "name"), t)]) := by
    intro t
    unfold addMember
    rw [ha.1, ha.2]
    rfl
  rw [expand]
  split
  · rename_i hf; rw [h] at hf; cases hf
  · rename_i f' hf
    rw [h] at hf
    cases hf
    rw [if_pos ht, hb]
    simp only [Outcome.ok_bind, reduceCtorEq, if_false, hadd, List.tail_cons]
    rfl

theorem mapM_flatten {α : Type} (r : Setting → Setting) (f : α → Outcome (List Setting)) (g : α → List Setting) : ∀ l : List α,
    (∀ a ∈ l, ∃ x, f a = .ok x ∧ x.map r = (g a).map r) →
    ∃ xs, l.mapM f = .ok xs ∧ xs.flatten.map r = (l.flatMap g).map r
  | [], _ => ⟨[], rfl, rfl⟩
  | a :: l, h => by
    obtain ⟨x, h1, h2⟩ := h a List.mem_cons_self
    obtain ⟨xs, h3, h4⟩ := mapM_flatten r f g l (fun b hb => h b (List.mem_cons_of_mem _ hb))
    refine ⟨x :: xs, ?_, ?_⟩
    · rw [List.mapM_cons, h1, h3]
      rfl
    · rw [List.flatten_cons, List.map_append, h2, h4, List.flatMap_cons, List.map_append]

theorem expand_choices {prec : ℚ → ℚ} (hp : ∀ x, prec (prec x) = prec x) : ∀ (n : ℕ) (s : Setting), count s < n → Expandable s →
    ∃ l, expand prec s = .ok l ∧ l.map (reread prec) = (choices s).map (reread prec)
  | 0, s, h, _ => by omega
  | n + 1, s, hc, hs => by
    cases hf : findExpand s with
    | none =>
      rw [choices_none s hf]
      exact ⟨[s], expand_none hf, rfl⟩
    | some f =>
      obtain ⟨hpar, hplug⟩ := expandable_found s hs hf
      have hlook := expandGroup_some (findExpand_spec s hf).1
      rw [choices_found s hs hf]
      by_cases ht : f.spec.lookup "type" = some (.str "binning".toList)
      · have hus : Usable f.parent f.spec := by
          have h := hpar
          unfold Expandable at h
          exact h.2.1 _ hlook
        have hnd : (f.parent.map Prod.fst).Nodup := by
          have h := hpar
          unfold Expandable at h
          exact h.1
        obtain ⟨⟨nm, h1, h2, h3⟩, x, xs, h4⟩ := hus ht
        have hne : nm ≠ [] := by rintro rfl; simp [validName] at h2
        have hnm : textOf f.spec "name" = nm := (textOf_iff hne).mpr h1
        have hno : nameOf f.spec = String.ofList nm := by unfold nameOf; rw [h1]
        rw [expand_binning hf ((textOf_iff (by simp)).mpr ht) (getBinning_floats h4)
          (by rw [hnm]; exact ⟨h2, name_free hnd h3⟩), hnm, binsOf_floats ht h4, hno]
        have := mapM_flatten (reread prec) (fun b : ℚ × ℚ => expand prec (reread prec (f.plug (removeMember f.parent "expand" ++
          [(String.ofList nm, binSetting b.1 b.2)])))) (fun b : ℚ × ℚ => choices (f.plug (removeMember f.parent "expand" ++
          [(String.ofList nm, binSetting b.1 b.2)]))) ((x :: xs).zip xs) ?_
        · obtain ⟨ys, e1, e2⟩ := this
          rw [e1]
          refine ⟨ys.flatten, rfl, ?_⟩
          rw [e2, List.flatMap_map]
          rfl
        · intro b _
          have hlt := count_step hf prec (String.ofList nm) b.1 b.2
          obtain ⟨l, e1, e2⟩ := expand_choices hp n _ (lt_of_lt_of_le hlt (Nat.lt_succ_iff.mp hc))
            (expandable_reread (prec := prec) _ (hplug _ (expandable_step hpar h3 b.1 b.2)))
          refine ⟨l, e1, ?_⟩
          rw [e2, choices_reread, List.map_map]
          apply List.map_congr_left
          intro y _
          exact reread_reread hp y
      · rw [expand_other hf (fun h => ht ((textOf_iff (by simp)).mp h))]
        refine ⟨[], rfl, ?_⟩
        have : binsOf f.spec = [] := by
          unfold binsOf
          split
          · rename_i t l h1 h2
            rw [if_neg]
            rintro rfl
            exact ht h1
          · rfl
        rw [this]
        rfl

/-- **C59** a key file describes exactly the waves with one bin for each of its `expand` groups, in the order of the file (the
bins of the first `expand` group vary slowest), with numbers as they are written to text; without `expand` groups it describes
one wave. -/
theorem parseWaves_spec {prec : ℚ → ℚ} (hp : ∀ x, prec (prec x) = prec x) {s : Setting} (hs : Expandable s) :
    parseWaves prec s = .ok ((choices s).map (reread prec)) := by
  obtain ⟨l, e1, e2⟩ := expand_choices hp (count s + 1) s (Nat.lt_succ_self _) hs
  unfold parseWaves
  rw [e1, ← e2]
  rfl

theorem length_flatMap_const {α β : Type} (l : List α) (f : α → List β) (n : ℕ) (h : ∀ a ∈ l, (f a).length = n) :
    (l.flatMap f).length = l.length * n := by
  induction l with
  | nil => simp
  | cons a l ih =>
    rw [List.flatMap_cons, List.length_append, h a List.mem_cons_self, ih (fun b hb => h b (List.mem_cons_of_mem _ hb)),
      List.length_cons]
    ring

mutual
theorem choices_length : ∀ s, (choices s).length = combos s
  | .group g => by
    unfold choices combos
    split
    · rw [length_flatMap_const _ _ (combosMembers true g) (fun b _ => by rw [List.length_map, choicesMembers_length true g])]
    · rw [List.length_map, choicesMembers_length false g]
  | .list l => by
    unfold choices combos
    rw [List.length_map, choicesElements_length l]
  | .int _ => by simp [choices, combos]
  | .float _ => by simp [choices, combos]
  | .str _ => by simp [choices, combos]
  | .bool _ => by simp [choices, combos]
theorem choicesMembers_length (skip : Bool) : ∀ g, (choicesMembers skip g).length = combosMembers skip g
  | [] => by simp [choicesMembers, combosMembers]
  | (n, s) :: r => by
    unfold choicesMembers combosMembers
    split_ifs
    · rw [choicesMembers_length skip r, one_mul]
    · rw [length_flatMap_const _ _ (combosMembers skip r) (fun b _ => by rw [List.length_map, choicesMembers_length skip r]),
        choices_length s]
theorem choicesElements_length : ∀ l, (choicesElements l).length = combosElements l
  | [] => by simp [choicesElements, combosElements]
  | s :: r => by
    unfold choicesElements combosElements
    rw [length_flatMap_const _ _ (combosElements r) (fun b _ => by rw [List.length_map, choicesElements_length r]),
      choices_length s]
end

/-- **C59** the number of waves is the product of the numbers of bins. -/
theorem parseWaves_length {prec : ℚ → ℚ} (hp : ∀ x, prec (prec x) = prec x) {s : Setting} (hs : Expandable s) :
    ∃ l, parseWaves prec s = .ok l ∧ l.length = combos s :=
  ⟨_, parseWaves_spec hp hs, by rw [List.length_map, choices_length]⟩

/-! ### files that are not usable -/

/-- **C59**, false of the code: an `expand` group without a list of edges is not rejected; elements outside of an empty vector
are read. -/
theorem no_bins {prec : ℚ → ℚ} {s : Setting} {f : Found Setting} (h : findExpand s = some f)
    (ht : f.spec.lookup "type" = some (.str "binning".toList)) (hb : findList (.group f.spec) "bins" = none)
    (ha : validName (textOf f.spec "name") = true ∧
      (removeMember f.parent "expand").lookup (String.ofList (textOf f.spec "name")) = none) :
    parseWaves prec s = .ub := by
  have : expand prec s = .ub := by
    rw [expand]
    split
    · rename_i hf; rw [h] at hf; cases hf
    · rename_i f' hf
      rw [h] at hf
      cases hf
      have hbin : getBinning f.spec = .ok [] := by unfold getBinning; rw [hb]
      have hadd : addMember (removeMember f.parent "expand") (textOf f.spec "name") (.list []) =
          .ok (removeMember f.parent "expand" ++ [(String.ofList (textOf f.spec "name"), .list [])]) := by
        unfold addMember
        rw [ha.1, ha.2]
        rfl
      rw [if_pos ((textOf_iff (by simp)).mpr ht), hbin]
      simp only [Outcome.ok_bind, if_true, hadd]
  unfold parseWaves
  rw [this]
  rfl

/-- **C59**, false of the code: a name that is missing, not valid, or taken ends the program with an exception. -/
theorem bad_name {prec : ℚ → ℚ} {s : Setting} {f : Found Setting} (h : findExpand s = some f)
    (ht : f.spec.lookup "type" = some (.str "binning".toList)) {x y : ℚ} {xs : List ℚ}
    (hb : f.spec.lookup "bins" = some (.list ((x :: y :: xs).map .float)))
    (ha : ¬(validName (textOf f.spec "name") = true ∧
      (removeMember f.parent "expand").lookup (String.ofList (textOf f.spec "name")) = none)) :
    parseWaves prec s = .terminate := by
  have : expand prec s = .terminate := by
    rw [expand]
    split
    · rename_i hf; rw [h] at hf; cases hf
    · rename_i f' hf
      rw [h] at hf
      cases hf
      have hadd : addMember (removeMember f.parent "expand") (textOf f.spec "name") (.list []) = .terminate := by
        unfold addMember
        rw [if_neg]
        simpa using ha
      rw [if_pos ((textOf_iff (by simp)).mpr ht), getBinning_floats hb]
      simp only [Outcome.ok_bind, reduceCtorEq, if_false, List.tail_cons, List.zip_cons_cons, List.mapM_cons, hadd,
        Outcome.terminate_bind]
  unfold parseWaves
  rw [this]
  rfl

/-- **C59**, false of the code: an integer among the edges (`2` instead of `2.0`) ends the program with an exception. -/
theorem integer_edge {prec : ℚ → ℚ} {s : Setting} {f : Found Setting} (h : findExpand s = some f)
    (ht : f.spec.lookup "type" = some (.str "binning".toList)) {a : List ℚ} {z : ℤ} {b : List Setting}
    (hb : f.spec.lookup "bins" = some (.list (a.map .float ++ .int z :: b))) :
    parseWaves prec s = .terminate := by
  have hbin : getBinning f.spec = .terminate := by
    unfold getBinning findList Setting.member
    dsimp only
    rw [hb]
    have hne : a.map Setting.float ++ .int z :: b ≠ [] := by simp
    simp only [hne, if_false]
    have : ∀ l : List ℚ, (l.map Setting.float ++ .int z :: b).mapM (fun s => match s with
      | .float x => (Outcome.ok x : Outcome ℚ)
      | _ => .terminate) = .terminate := by
      intro l
      induction l with
      | nil => rw [List.map_nil, List.nil_append, List.mapM_cons]; rfl
      | cons a l ih => rw [List.map_cons, List.cons_append, List.mapM_cons, ih]; rfl
    exact this a
  have : expand prec s = .terminate := by
    rw [expand]
    split
    · rename_i hf; rw [h] at hf; cases hf
    · rename_i f' hf
      rw [h] at hf
      cases hf
      rw [if_pos ((textOf_iff (by simp)).mpr ht), hbin]
      rfl
  unfold parseWaves
  rw [this]
  rfl

/-! ### the pipe -/

/-- steps until the function returns or blocks -/
def Pipe.run (cap : ℕ) : ℕ → Pipe → Pipe
  | 0, p => p
  | n + 1, p => match p.step cap with
    | none => p
    | some p' => Pipe.run cap n p'

theorem pipe_write (cap : ℕ) : ∀ (text buf : List Char) (n : ℕ), buf.length + text.length ≤ cap →
    Pipe.run cap (text.length + n) ⟨text, buf, [], false⟩ = Pipe.run cap n ⟨[], buf ++ text, [], false⟩
  | [], buf, n, _ => by simp
  | c :: r, buf, n, h => by
    simp only [List.length_cons] at h ⊢
    rw [show r.length + 1 + n = (r.length + n) + 1 by omega]
    conv_lhs => unfold Pipe.run
    have hs : Pipe.step cap ⟨c :: r, buf, [], false⟩ = some ⟨r, buf ++ [c], [], false⟩ := by
      unfold Pipe.step
      simp only [Bool.false_eq_true, if_false]
      rw [if_pos (by omega)]
    rw [hs]
    dsimp only
    rw [pipe_write cap r (buf ++ [c]) n (by simp; omega), List.append_assoc]
    rfl

theorem pipe_read (cap : ℕ) : ∀ (buf out : List Char), Pipe.run cap buf.length ⟨[], buf, out, true⟩ = ⟨[], [], out ++ buf, true⟩
  | [], out => by simp [Pipe.run]
  | c :: r, out => by
    simp only [List.length_cons]
    unfold Pipe.run
    have hs : Pipe.step cap ⟨[], c :: r, out, true⟩ = some ⟨[], r, out ++ [c], true⟩ := by simp [Pipe.step]
    rw [hs]
    dsimp only
    rw [pipe_read cap r (out ++ [c]), List.append_assoc]
    rfl

/-- **C59** a text that fits into the pipe is returned. -/
theorem pipe_fits {cap : ℕ} {text : List Char} (h : text.length ≤ cap) :
    ∃ n, Pipe.run cap n ⟨text, [], [], false⟩ = ⟨[], [], text, true⟩ ∧ Pipe.step cap ⟨[], [], text, true⟩ = none := by
  refine ⟨text.length + (text.length + 1), ?_, by simp [Pipe.step]⟩
  rw [pipe_write cap text [] _ (by simpa using h), List.nil_append]
  unfold Pipe.run
  have hs : Pipe.step cap ⟨[], text, [], false⟩ = some ⟨[], text, [], true⟩ := by simp [Pipe.step]
  rw [hs]
  dsimp only
  rw [pipe_read, List.nil_append]

/-- **C59**, false of the code: a key file whose text is longer than the pipe can hold (64 KiB on Linux) blocks forever: writing
never ends and reading never starts. -/
theorem pipe_blocks {cap : ℕ} {text : List Char} (h : cap < text.length) :
    ∃ n p, Pipe.run cap n ⟨text, [], [], false⟩ = p ∧ p.closed = false ∧ p.todo ≠ [] ∧ p.step cap = none := by
  obtain ⟨a, b, hab, ha⟩ : ∃ a b, text = a ++ b ∧ a.length = cap := ⟨text.take cap, text.drop cap, (List.take_append_drop _ _).symm,
    by rw [List.length_take]; omega⟩
  have hb : b ≠ [] := by
    rintro rfl
    rw [hab, List.append_nil] at h
    omega
  have key : ∀ (a buf b : List Char), buf.length + a.length ≤ cap →
      Pipe.run cap a.length ⟨a ++ b, buf, [], false⟩ = ⟨b, buf ++ a, [], false⟩ := by
    intro a
    induction a with
    | nil => intro buf b _; simp [Pipe.run]
    | cons c a ih =>
      intro buf b hl
      simp only [List.length_cons, List.cons_append] at hl ⊢
      unfold Pipe.run
      have hs : Pipe.step cap ⟨c :: (a ++ b), buf, [], false⟩ = some ⟨a ++ b, buf ++ [c], [], false⟩ := by
        unfold Pipe.step
        simp only [Bool.false_eq_true, if_false]
        rw [if_pos (by omega)]
      rw [hs]
      dsimp only
      rw [ih (buf ++ [c]) b (by simp; omega), List.append_assoc]
      rfl
  refine ⟨a.length, ⟨b, a, [], false⟩, ?_, rfl, hb, ?_⟩
  · rw [hab, key a [] b (by simp; omega), List.nil_append]
  · unfold Pipe.step
    simp only [Bool.false_eq_true, if_false]
    cases b with
    | nil => exact (hb rfl).elim
    | cons c r =>
      dsimp only
      rw [if_neg (by omega)]

/-! ### an example -/

namespace ExpandEx

/-- two nested binnings -/
def file : Setting := .group [("decayVertex", .group [
  ("expand", .group [("type", .str "binning".toList), ("name", .str "a".toList), ("bins", .list [.float 1, .float 2, .float 3])]),
  ("isobars", .list [.group [
    ("expand", .group [("type", .str "binning".toList), ("name", .str "b".toList), ("bins", .list [.float 5, .float 6, .float 7])])]])])]

example : Expandable file := by
  have hu : ∀ (n : List Char) (x : ℚ) (xs : List ℚ) (g : Members), validName n = true → g.lookup (String.ofList n) = none →
      Usable g [("type", .str "binning".toList), ("name", .str n), ("bins", .list ((x :: xs).map .float))] := by
    intro n x xs g hn hg _
    exact ⟨⟨n, by simp [List.lookup_cons], hn, Or.inr hg⟩, x, xs, by simp [List.lookup_cons]⟩
  have h1 := hu "a".toList 1 [2, 3]
  have h2 := hu "b".toList 5 [6, 7]
  simp only [List.map_cons, List.map_nil] at h1 h2
  simp only [Expandable, ExpandableMembers, ExpandableElements, file, List.map_cons, List.map_nil, and_true,
    List.lookup_cons, List.lookup_nil, beq_self_eq_true, Option.some.injEq, Setting.group.injEq, forall_eq']
  refine ⟨by decide, by simp, by decide, h1 _ (by decide) (by decide), ⟨by decide, by simp⟩, by decide,
    h2 _ (by decide) (by decide), by decide, by simp⟩

/-- four waves -/
example : combos file = 4 := by
  simp [combos, combosMembers, combosElements, file, binsOf, edges, List.lookup_cons]

/-- an `expand` group without bins -/
example : parseWaves id (.group [("expand", .group [("type", .str "binning".toList), ("name", .str "a".toList)])]) = .ub :=
  no_bins (f := ⟨_, _, _⟩) rfl rfl rfl ⟨by decide, by decide⟩

end ExpandEx

end Rpwa.KeyFile

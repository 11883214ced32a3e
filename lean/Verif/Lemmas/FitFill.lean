import Verif.Spec.FitResult
import Mathlib.Data.List.Nodup
import Mathlib.Data.List.Infix
/-! Lemmas for `fill`: the list of waves and the index map. -/
namespace Rpwa.Fit

/-- wave names in the order in which they appear, after those already there. -/
def appear (names waves : List Name) : List Name := names.foldl (fun ws n => if n ∈ ws then ws else ws ++ [n]) waves

theorem idxOf_eq_length {n : Name} {ws : List Name} : ws.idxOf n = ws.length ↔ n ∉ ws := by
  rw [List.idxOf_eq_length_iff]

theorem waveLoop_fst (names : List Name) (i : ℕ) (waves : List Name) (m : ℕ → Option ℕ) :
    (FitResult.waveLoop names i waves m).1 = appear (names.map waveNameOf) waves := by
  induction names generalizing i waves m with
  | nil => rfl
  | cons n ns ih =>
    rw [FitResult.waveLoop, ih]
    unfold appear
    rw [List.map_cons, List.foldl_cons]
    congr 1
    by_cases h : waveNameOf n ∈ waves
    · rw [if_pos h, if_neg (fun e => idxOf_eq_length.1 e h)]
    · rw [if_neg h, if_pos (idxOf_eq_length.2 h)]

theorem appear_cons (n : Name) (ns ws : List Name) : appear (n :: ns) ws = appear ns (if n ∈ ws then ws else ws ++ [n]) := rfl

theorem prefix_appear (names ws : List Name) : ws <+: appear names ws := by
  induction names generalizing ws with
  | nil => exact List.prefix_rfl
  | cons n ns ih =>
    rw [appear_cons]
    refine List.IsPrefix.trans ?_ (ih _)
    split
    · exact List.prefix_rfl
    · exact List.prefix_append _ _

theorem mem_appear {names ws : List Name} {n : Name} : n ∈ appear names ws ↔ n ∈ ws ∨ n ∈ names := by
  induction names generalizing ws with
  | nil => simp [appear]
  | cons m ns ih =>
    rw [appear_cons, ih, List.mem_cons]
    by_cases h : m ∈ ws
    · rw [if_pos h]
      constructor
      · rintro (h' | h')
        · exact .inl h'
        · exact .inr (.inr h')
      · rintro (h' | rfl | h')
        · exact .inl h'
        · exact .inl h
        · exact .inr h'
    · rw [if_neg h, List.mem_append, List.mem_singleton, or_assoc]

theorem nodup_appear {names ws : List Name} (h : ws.Nodup) : (appear names ws).Nodup := by
  induction names generalizing ws with
  | nil => exact h
  | cons n ns ih =>
    rw [appear_cons]
    refine ih ?_
    split
    · exact h
    · rename_i hn
      exact List.nodup_append.2 ⟨h, List.nodup_singleton _, by
        intro a ha b hb
        rw [List.mem_singleton] at hb
        rintro rfl
        exact hn (hb ▸ ha)⟩

theorem idxOf_prefix {a b : List Name} {n : Name} (h : a <+: b) (hn : n ∈ a) : b.idxOf n = a.idxOf n := by
  obtain ⟨t, rfl⟩ := h
  exact List.idxOf_append_of_mem hn

theorem waveLoop_snd (names : List Name) (i : ℕ) (waves : List Name) (m : ℕ → Option ℕ) (k : ℕ) :
    (FitResult.waveLoop names i waves m).2 k = if h : i ≤ k ∧ k < i + names.length then
      some ((appear (names.map waveNameOf) waves).idxOf (waveNameOf (names.getD (k - i) []))) else m k := by
  induction names generalizing i waves m with
  | nil =>
    rw [dif_neg (by simp)]
    rfl
  | cons n ns ih =>
    rw [FitResult.waveLoop, ih, List.map_cons, appear_cons]
    have e : (if waves.idxOf (waveNameOf n) = waves.length then waves ++ [waveNameOf n] else waves) =
        if waveNameOf n ∈ waves then waves else waves ++ [waveNameOf n] := by
      by_cases h : waveNameOf n ∈ waves
      · rw [if_pos h, if_neg (fun e => idxOf_eq_length.1 e h)]
      · rw [if_neg h, if_pos (idxOf_eq_length.2 h)]
    simp only [e]
    by_cases hk : k = i
    · subst hk
      rw [dif_neg (by omega), dif_pos (by simp), if_pos rfl, Nat.sub_self, List.getD_cons_zero]
      congr 1
      have hmem : waveNameOf n ∈ (if waveNameOf n ∈ waves then waves else waves ++ [waveNameOf n]) := by
        split
        · assumption
        · simp
      rw [idxOf_prefix (prefix_appear _ _) hmem]
      split
      · rfl
      · rename_i h
        rw [List.idxOf_append, if_neg h]; simp [List.idxOf_eq_length_iff.2 h]
    · by_cases hr : i + 1 ≤ k ∧ k < i + 1 + ns.length
      · rw [dif_pos hr, dif_pos (by simp only [List.length_cons]; omega)]
        rw [show k - i = (k - (i + 1)) + 1 by omega, List.getD_cons_succ]
      · rw [dif_neg hr, dif_neg (by simp only [List.length_cons]; omega), if_neg hk]

/-- starting from old names, the new ones are appended. -/
theorem appear_old (names old : List Name) : appear names old = old ++ (appear names []).filter (fun n => decide (n ∉ old)) := by
  have key : ∀ (names acc : List Name), appear names (old ++ acc.filter (fun n => decide (n ∉ old))) =
      old ++ (appear names acc).filter (fun n => decide (n ∉ old)) := by
    intro names
    induction names with
    | nil => intro acc; rfl
    | cons n ns ih =>
      intro acc
      rw [appear_cons, appear_cons]
      by_cases h : n ∈ acc
      · rw [if_pos h, if_pos, ih]
        by_cases ho : n ∈ old
        · exact List.mem_append_left _ ho
        · exact List.mem_append_right _ (List.mem_filter.2 ⟨h, by simpa using ho⟩)
      · rw [if_neg h, ← ih]
        congr 1
        by_cases ho : n ∈ old
        · rw [if_pos (List.mem_append_left _ ho), List.filter_append]
          simp [ho]
        · rw [if_neg, List.filter_append]
          · simp [ho]
          · intro h'
            rcases List.mem_append.1 h' with h' | h'
            · exact ho h'
            · exact h (List.mem_filter.1 h').1
  simpa using key names []

theorem appear_eq_iff (names old : List Name) : appear names old = appear names [] ↔ old <+: appear names [] := by
  constructor
  · intro h; rw [← h]; exact prefix_appear _ _
  · rintro ⟨t, ht⟩
    have hn : (appear names []).Nodup := nodup_appear List.nodup_nil
    rw [appear_old, ← ht, List.filter_append]
    rw [← ht] at hn
    have h1 : old.filter (fun n => decide (n ∉ old)) = [] := by
      rw [List.filter_eq_nil_iff]; intro a ha; simpa using ha
    have h2 : t.filter (fun n => decide (n ∉ old)) = t := by
      rw [List.filter_eq_self]; intro a ha
      simpa using fun ho => (List.nodup_append.1 hn).2.2 a ho a ha rfl
    rw [h1, h2, List.nil_append]

end Rpwa.Fit

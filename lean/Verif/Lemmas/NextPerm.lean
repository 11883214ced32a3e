import Verif.Model.NextPerm
import Mathlib.Data.List.Lex
import Mathlib.Data.List.Perm.Lattice
import Mathlib.Order.WellFounded

namespace Rpwa.NextPerm

theorem swap_none {a : ℕ} : ∀ {l : List ℕ}, swapFirstGreater a l = none ↔ ∀ b ∈ l, b ≤ a
  | [] => by simp [swapFirstGreater]
  | b :: l => by
    have ih := @swap_none a l
    simp only [swapFirstGreater]
    split
    · simp; omega
    · rename_i h
      cases hs : swapFirstGreater a l with
      | none => simp [ih.1 hs]; exact ⟨by omega, ih.1 hs⟩
      | some p =>
        obtain ⟨c, l'⟩ := p
        simp only [reduceCtorEq, false_iff]
        intro hh
        have := ih.2 (fun x hx => hh x (by simp [hx]))
        rw [hs] at this; cases this

/-- decomposition of a successful swap -/
theorem swap_some {a : ℕ} : ∀ {l : List ℕ} {b l'}, swapFirstGreater a l = some (b, l') →
    ∃ u v, l = u ++ b :: v ∧ l' = u ++ a :: v ∧ a < b ∧ ∀ x ∈ u, x ≤ a
  | [], _, _, h => by simp [swapFirstGreater] at h
  | c :: l, b, l', h => by
    simp only [swapFirstGreater] at h
    split at h
    · simp only [Option.some.injEq, Prod.mk.injEq] at h
      obtain ⟨rfl, rfl⟩ := h
      exact ⟨[], l, rfl, rfl, by assumption, by simp⟩
    · rename_i hc
      cases hs : swapFirstGreater a l with
      | none => simp [hs] at h
      | some p =>
        obtain ⟨d, l''⟩ := p
        simp only [hs, Option.some.injEq, Prod.mk.injEq] at h
        obtain ⟨rfl, rfl⟩ := h
        obtain ⟨u, v, rfl, rfl, hab, hu⟩ := swap_some hs
        exact ⟨c :: u, v, rfl, rfl, hab, by
          intro x hx
          rcases List.mem_cons.1 hx with rfl | hx
          · omega
          · exact hu x hx⟩

theorem next_perm : ∀ {l l' : List ℕ}, next l = some l' → l'.Perm l
  | [], _, h => by simp [next] at h
  | a :: l, l', h => by
    simp only [next] at h
    cases hn : next l with
    | some m =>
      simp only [hn, Option.some.injEq] at h
      subst h
      exact (next_perm hn).cons a
    | none =>
      simp only [hn] at h
      cases hs : swapFirstGreater a l.reverse with
      | none => simp [hs] at h
      | some p =>
        obtain ⟨b, m⟩ := p
        simp only [hs, Option.some.injEq] at h
        subst h
        obtain ⟨u, v, h1, rfl, -, -⟩ := swap_some hs
        have h2 : l.Perm (u ++ b :: v) := h1 ▸ (List.reverse_perm l).symm
        refine List.Perm.trans ?_ (h2.cons a).symm
        refine (List.Perm.cons b List.perm_middle).trans ?_
        refine (List.Perm.swap a b _).trans ?_
        exact (List.perm_middle.symm).cons a

/-- No next permutation exactly when the list is (weakly) descending. -/
theorem next_none : ∀ {l : List ℕ}, next l = none ↔ l.Pairwise (fun x y => y ≤ x)
  | [] => by simp [next]
  | a :: l => by
    have ih := @next_none l
    simp only [next, List.pairwise_cons]
    cases hn : next l with
    | some m =>
      simp only [reduceCtorEq, false_iff, not_and]
      intro _ h
      rw [ih.2 h] at hn; cases hn
    | none =>
      simp only
      cases hs : swapFirstGreater a l.reverse with
      | none =>
        have := swap_none.1 hs
        simp only [List.mem_reverse] at this
        simp [ih.1 hn]; exact this
      | some p =>
        simp only [reduceCtorEq, false_iff, not_and]
        intro h
        have := (swap_none (a := a) (l := l.reverse)).2 (by simpa using h)
        rw [hs] at this; cases this

theorem desc_max {l p : List ℕ} (hl : l.Pairwise (fun x y => y ≤ x)) (hp : p.Perm l) : ¬ l < p := by
  induction l generalizing p with
  | nil => have : p = [] := hp.eq_nil
           subst this; exact lt_irrefl _
  | cons a l ih =>
    cases p with
    | nil => exact absurd hp.symm (by simp)
    | cons b p =>
      rw [List.pairwise_cons] at hl
      rw [List.cons_lt_cons_iff]
      rintro (h | ⟨rfl, h⟩)
      · have : b ∈ a :: l := hp.subset (by simp)
        rcases List.mem_cons.1 this with rfl | h'
        · omega
        · have := hl.1 b h'; omega
      · exact ih hl.2 ((List.perm_cons a).1 hp) h

theorem asc_min {l p : List ℕ} (hl : l.Pairwise (fun x y => x ≤ y)) (hp : p.Perm l) : ¬ p < l := by
  induction l generalizing p with
  | nil => have : p = [] := hp.eq_nil
           subst this; exact lt_irrefl _
  | cons a l ih =>
    cases p with
    | nil => exact absurd hp.symm (by simp)
    | cons b p =>
      rw [List.pairwise_cons] at hl
      rw [List.cons_lt_cons_iff]
      rintro (h | ⟨rfl, h⟩)
      · have : b ∈ a :: l := hp.subset (by simp)
        rcases List.mem_cons.1 this with rfl | h'
        · omega
        · have := hl.1 b h'; omega
      · exact ih hl.2 ((List.perm_cons b).1 hp) h

theorem next_gt : ∀ {l l' : List ℕ}, next l = some l' → l < l'
  | [], _, h => by simp [next] at h
  | a :: l, l', h => by
    simp only [next] at h
    cases hn : next l with
    | some m =>
      simp only [hn, Option.some.injEq] at h
      subst h
      rw [List.cons_lt_cons_iff]
      exact Or.inr ⟨rfl, next_gt hn⟩
    | none =>
      simp only [hn] at h
      cases hs : swapFirstGreater a l.reverse with
      | none => simp [hs] at h
      | some p =>
        obtain ⟨b, m⟩ := p
        simp only [hs, Option.some.injEq] at h
        subst h
        obtain ⟨u, v, -, -, hab, -⟩ := swap_some hs
        rw [List.cons_lt_cons_iff]
        exact Or.inl hab

/-- There is no permutation strictly between `l` and its successor. -/
theorem next_least : ∀ {l l' p : List ℕ}, next l = some l' → p.Perm l → l < p → ¬ p < l'
  | [], _, _, h, _, _ => by simp [next] at h
  | a :: l, l', p, h, hp, hlp => by
    cases p with
    | nil => exact absurd hp.symm (by simp)
    | cons c p =>
    simp only [next] at h
    rw [List.cons_lt_cons_iff] at hlp
    cases hn : next l with
    | some m =>
      simp only [hn, Option.some.injEq] at h
      subst h
      rw [List.cons_lt_cons_iff]
      rcases hlp with h1 | ⟨rfl, h1⟩
      · rintro (h2 | ⟨rfl, -⟩) <;> omega
      · rintro (h2 | ⟨-, h2⟩)
        · omega
        · exact next_least hn ((List.perm_cons a).1 hp) h1 h2
    | none =>
      have hdesc := next_none.1 hn
      simp only [hn] at h
      cases hs : swapFirstGreater a l.reverse with
      | none => simp [hs] at h
      | some q =>
        obtain ⟨b, m⟩ := q
        simp only [hs, Option.some.injEq] at h
        subst h
        obtain ⟨u, v, h1, rfl, hab, hu⟩ := swap_some hs
        have hasc : (u ++ b :: v).Pairwise (fun x y => x ≤ y) := by
          rw [← h1]; exact List.pairwise_reverse.2 hdesc
        rcases hlp with hac | ⟨rfl, hlp⟩
        · rw [List.cons_lt_cons_iff]
          rw [List.pairwise_append] at hasc
          obtain ⟨hu1, hbv, huv⟩ := hasc
          rw [List.pairwise_cons] at hbv
          have hl : l.Perm (u ++ b :: v) := h1 ▸ (List.reverse_perm l).symm
          have hcm : c ∈ a :: (u ++ b :: v) := (hp.trans (hl.cons a)).subset (by simp)
          rintro (hcb | ⟨rfl, hpl⟩)
          · simp only [List.mem_cons, List.mem_append] at hcm
            rcases hcm with rfl | h' | rfl | h'
            · omega
            · have := hu c h'; omega
            · omega
            · have := hbv.1 c h'; omega
          · have hperm : p.Perm (u ++ a :: v) := by
              have h3 : (c :: p).Perm (c :: (u ++ a :: v)) := by
                refine (hp.trans (hl.cons a)).trans ?_
                refine ((List.perm_middle (a := c)).cons a).trans ?_
                refine (List.Perm.swap c a _).trans ?_
                exact (List.perm_middle.symm).cons c
              exact (List.perm_cons c).1 h3
            refine asc_min ?_ hperm hpl
            rw [List.pairwise_append, List.pairwise_cons]
            refine ⟨hu1, ⟨fun x hx => ?_, hbv.2⟩, fun x hx y hy => ?_⟩
            · have := hbv.1 x hx; omega
            · rcases List.mem_cons.1 hy with rfl | hy
              · exact hu x hx
              · exact huv x hx y (by simp [hy])
        · exact absurd hlp (desc_max hdesc ((List.perm_cons a).1 hp))

end Rpwa.NextPerm

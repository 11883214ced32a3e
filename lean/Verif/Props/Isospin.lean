import Verif.Props.Symmetrization

/-! # C46 – isospin symmetrisation -/

namespace Rpwa.Sym
open NextPerm

theorem allGroupPermsRev_spec : ∀ (gs : List (List ℕ)), gs ≠ [] → (∀ g ∈ gs, g.Pairwise (· ≤ ·)) →
    ∃ ps, allGroupPermsRev gs = some ps ∧ ps.Nodup ∧
      ∀ p, p ∈ ps ↔ List.Forall₂ List.Perm p gs.reverse
  | [], h, _ => absurd rfl h
  | [g], _, h => by
    have hg := sort_of_sorted (h g (by simp))
    refine ⟨(visits g).map fun p => [p], ?_, ?_, ?_⟩
    · simp [allGroupPermsRev, hg, permLoop_eq]
    · exact (visits_nodup g).map (fun a b h => by simpa using h)
    · intro p
      simp only [List.mem_map, mem_visits_sorted (h g (by simp)), List.reverse_singleton]
      constructor
      · rintro ⟨c, hc, rfl⟩; exact List.Forall₂.cons hc List.Forall₂.nil
      · intro h'
        cases h' with
        | cons h1 h2 => cases h2; exact ⟨_, h1, rfl⟩
  | g :: g' :: gs, _, h => by
    have hg := sort_of_sorted (h g (by simp))
    obtain ⟨sub, h1, h2, h3⟩ := allGroupPermsRev_spec (g' :: gs) (by simp)
      (fun x hx => h x (by simp only [List.mem_cons] at hx ⊢; exact Or.inr hx))
    refine ⟨(visits g).flatMap fun p => sub.map fun s => s ++ [p], ?_, ?_, ?_⟩
    · simp only [allGroupPermsRev, h1, hg, permLoop_eq, Option.bind_some]
    · rw [List.nodup_flatMap]
      refine ⟨fun c _ => h2.map (fun a b h => by simpa using h), ?_⟩
      refine (visits_nodup g).imp ?_
      intro a b hab
      simp only [Function.onFun, List.disjoint_left, List.mem_map, not_exists, not_and]
      rintro x ⟨s, _, rfl⟩ s' _ h'
      have := (List.append_inj' h' rfl).2
      simp only [List.cons.injEq, and_true] at this
      exact hab this.symm
    · intro p
      simp only [List.mem_flatMap, List.mem_map, mem_visits_sorted (h g (by simp)), h3]
      have hrev : (g :: g' :: gs).reverse = (g' :: gs).reverse ++ [g] := List.reverse_cons
      rw [hrev]
      constructor
      · rintro ⟨c, hc, s, hs, rfl⟩
        exact List.rel_append hs (List.Forall₂.cons hc List.Forall₂.nil)
      · intro h'
        rcases List.eq_nil_or_concat p with rfl | ⟨s, c, rfl⟩
        · exact absurd h'.length_eq (by simp)
        · rw [← List.forall₂_reverse_iff] at h'
          simp only [List.concat_eq_append, List.reverse_append, List.reverse_cons, List.reverse_nil,
            List.nil_append, List.cons_append] at h'
          cases h' with
          | cons h1 h2 =>
            refine ⟨c, h1, s, ?_, by simp⟩
            rw [← List.forall₂_reverse_iff]
            simpa using h2

/-- **C46.** For one or more groups of (ascending) particle indices, `getAllGroupPermutations` returns
every combination of one order per group, each exactly once. -/
theorem allGroupPermutations_spec (gs : List (List ℕ)) (hne : gs ≠ [])
    (hs : ∀ g ∈ gs, g.Pairwise (· ≤ ·)) :
    ∃ ps, getAllGroupPermutations gs = some ps ∧ ps.Nodup ∧
      ∀ p, p ∈ ps ↔ List.Forall₂ List.Perm p gs := by
  obtain ⟨ps, h1, h2, h3⟩ := allGroupPermsRev_spec gs.reverse (by simpa using hne) (by simpa using hs)
  exact ⟨ps, h1, h2, by simpa using h3⟩

example : ∃ ps, getAllGroupPermutations [[0, 1, 2], [3]] = some ps ∧ [[2, 0, 1], [3]] ∈ ps := by
  obtain ⟨ps, h1, -, h3⟩ := allGroupPermutations_spec [[0, 1, 2], [3]] (by simp) (by decide)
  exact ⟨ps, h1, (h3 _).2 (.cons (by decide) (.cons (.refl _) .nil))⟩

/-- **C46.** Every kept isospin map is a candidate that couples at every vertex, and no two kept maps
differ only by an exchange of equally named particles. -/
theorem isospin_kept_sound (name : ℕ → String) (from' : ℕ → ℕ) (couples : List ℕ → Bool)
    (cands : List (List ℕ)) :
    (∀ p ∈ isospinKept name from' couples cands, p ∈ cands ∧ couples p = true) ∧
    (isospinKept name from' couples cands).Pairwise (fun a p => clashes name from' a p = false) := by
  induction cands using List.reverseRecOn with
  | nil => simp [isospinKept]
  | append_singleton cs c ih =>
    unfold isospinKept at ih ⊢
    rw [List.foldl_append, List.foldl_cons, List.foldl_nil]
    set acc := cs.foldl (fun acc p =>
      if acc.any (fun a => clashes name from' a p) then acc
      else if couples p then acc ++ [p] else acc) [] with hacc
    have ih1 : ∀ p ∈ acc, p ∈ cs ++ [c] ∧ couples p = true :=
      fun p hp => ⟨by simp [(ih.1 p hp).1], (ih.1 p hp).2⟩
    split
    · exact ⟨ih1, ih.2⟩
    · rename_i hcl
      split
      · rename_i hco
        constructor
        · intro p hp
          rcases List.mem_append.1 hp with hp | hp
          · exact ih1 p hp
          · simp only [List.mem_singleton] at hp; subst hp; simp [hco]
        · rw [List.pairwise_append]
          refine ⟨ih.2, by simp, ?_⟩
          intro a ha p hp
          simp only [List.mem_singleton] at hp
          subst hp
          simp only [List.any_eq_true, not_exists, not_and, Bool.not_eq_true] at hcl
          exact hcl a ha
      · exact ⟨ih1, ih.2⟩

/-- The charge assignment of a permutation map: the name that position `i` receives. -/
def assignment (name : ℕ → String) (p : List ℕ) : List String := p.map name

/-- The chain `X → (K₁ → (K* → K⁺ π_0) π_1) π_2` with final state π⁰(0) π⁰(1) π⁻(2) K⁺(3); the mother vertices
of the four particles.  All isobars have isospin 1/2, so every one of the six pion orders couples at
every vertex. -/
def chainName : ℕ → String := fun i => ["pi0", "pi0", "pi-", "K+"].getD i ""
/-- mother vertices for the chain: π_0 and K⁺ come from the K* vertex -/
def chainFrom : ℕ → ℕ := fun i => [2, 1, 0, 2].getD i 9

/-- **C46 is false of the code.** In the chain above the assignments π⁰π⁰π⁻, π⁰π⁻π⁰ and π⁻π⁰π⁰ of pions to the
three positions are physically different, and candidates for all three exist, but the kept list
contains no map with the π⁻ at the first position: a candidate is discarded as soon as it agrees in
*name* with one accepted map at *one* position where the index differs. -/
theorem isospin_misses_assignment :
    let cands := [[0,1,2,3],[0,2,1,3],[1,0,2,3],[1,2,0,3],[2,0,1,3],[2,1,0,3]]
    (∃ ps, getAllGroupPermutations [[0,1,2],[3]] = some ps ∧
      ∀ p, p ∈ ps.map List.flatten ↔ p ∈ cands) ∧
    isospinKept chainName chainFrom (fun _ => true) cands = [[0,1,2,3],[0,2,1,3]] ∧
    (∃ p ∈ cands, assignment chainName p = ["pi-", "pi0", "pi0", "K+"]) ∧
    ¬ ∃ p ∈ isospinKept chainName chainFrom (fun _ => true) cands,
      assignment chainName p = ["pi-", "pi0", "pi0", "K+"] := by
  intro cands
  have hkept : isospinKept chainName chainFrom (fun _ => true) cands = [[0,1,2,3],[0,2,1,3]] := by decide
  refine ⟨?_, hkept, ⟨[2,0,1,3], by decide, by decide⟩, ?_⟩
  · obtain ⟨ps, h1, -, h3⟩ := allGroupPermutations_spec [[0, 1, 2], [3]] (by simp) (by decide)
    refine ⟨ps, h1, fun p => ?_⟩
    simp only [List.mem_map, h3]
    constructor
    · rintro ⟨q, hq, rfl⟩
      cases hq with
      | cons ha hq => cases hq with
        | cons hb hq =>
          cases hq
          rename_i a b
          have hb' : b = [3] := List.perm_singleton.1 hb
          subst hb'
          have ha' : a ∈ [0,1,2].permutations' := List.mem_permutations'.2 ha
          have : [0,1,2].permutations' = [[0,1,2],[1,0,2],[1,2,0],[0,2,1],[2,0,1],[2,1,0]] := by decide
          rw [this] at ha'
          simp only [List.mem_cons, List.not_mem_nil, or_false] at ha'
          rcases ha' with rfl | rfl | rfl | rfl | rfl | rfl <;> decide
    · intro hp
      simp only [cands, List.mem_cons, List.not_mem_nil, or_false] at hp
      rcases hp with rfl | rfl | rfl | rfl | rfl | rfl
      · exact ⟨[[0,1,2],[3]], .cons (by decide) (.cons (.refl _) .nil), rfl⟩
      · exact ⟨[[0,2,1],[3]], .cons (by decide) (.cons (.refl _) .nil), rfl⟩
      · exact ⟨[[1,0,2],[3]], .cons (by decide) (.cons (.refl _) .nil), rfl⟩
      · exact ⟨[[1,2,0],[3]], .cons (by decide) (.cons (.refl _) .nil), rfl⟩
      · exact ⟨[[2,0,1],[3]], .cons (by decide) (.cons (.refl _) .nil), rfl⟩
      · exact ⟨[[2,1,0],[3]], .cons (by decide) (.cons (.refl _) .nil), rfl⟩
  · rw [hkept]
    decide

/-- **C46 (partial).** What does hold: with no discarded candidate the isospin terms are all candidates;
in particular the identity (the first candidate) is always kept when the wave itself couples. -/
theorem isospin_first_kept_partial (name : ℕ → String) (from' : ℕ → ℕ) (couples : List ℕ → Bool)
    (c : List ℕ) (cs : List (List ℕ)) (hc : couples c = true) :
    c ∈ isospinKept name from' couples (c :: cs) := by
  have hmono : ∀ (l acc : List (List ℕ)), c ∈ acc → c ∈ l.foldl (fun acc p =>
      if acc.any (fun a => clashes name from' a p) then acc
      else if couples p then acc ++ [p] else acc) acc := by
    intro l
    induction l with
    | nil => simp
    | cons a l ih =>
      intro acc h
      rw [List.foldl_cons]
      apply ih
      split
      · exact h
      · split
        · simp [h]
        · exact h
  unfold isospinKept
  rw [List.foldl_cons]
  apply hmono
  simp [hc]

example : [0,1,2,3] ∈ isospinKept chainName chainFrom (fun _ => true) [[0,1,2,3],[0,2,1,3]] :=
  isospin_first_kept_partial _ _ _ _ _ rfl

/-! ### Groups of equal J, P, I -/

theorem groupsByJPI_mem_aux {β : Type} [DecidableEq β] (ps : List β) : ∀ n, n ≤ ps.length →
    let gs := (List.range n).foldl (fun gs i =>
      let same := fun (g : List ℕ) => (g.head?.bind fun k => ps[k]?) = ps[i]?
      if gs.any same then gs.map fun g => if same g then g ++ [i] else g
      else gs ++ [[i]]) ([] : List (List ℕ))
    (∀ g ∈ gs, ∃ b, b ∈ ps ∧ g ≠ [] ∧
      g = (List.range n).filter (fun i => ps[i]? = some b)) ∧
    (∀ i < n, ∃ g ∈ gs, i ∈ g) ∧
    gs.Pairwise List.Disjoint := by
  intro n
  induction n with
  | zero => intro _; simp
  | succ n ih =>
    intro hn gs'
    obtain ⟨h1, h2, h3⟩ := ih (by omega)
    simp only [gs', List.range_succ, List.foldl_append, List.foldl_cons, List.foldl_nil]
    set gs := (List.range n).foldl (fun gs i =>
      let same := fun (g : List ℕ) => (g.head?.bind fun k => ps[k]?) = ps[i]?
      if gs.any same then gs.map fun g => if same g then g ++ [i] else g
      else gs ++ [[i]]) ([] : List (List ℕ)) with hgs
    -- the key shared by a group
    have hhead : ∀ g ∈ gs, ∀ b, g = (List.range n).filter (fun i => ps[i]? = some b) → g ≠ [] →
        (g.head?.bind fun k => ps[k]?) = some b := by
      intro g _ b hb hne
      obtain ⟨k, t, rfl⟩ := List.exists_cons_of_ne_nil hne
      have : k ∈ (List.range n).filter (fun i => ps[i]? = some b) := hb ▸ List.mem_cons_self
      simpa using (List.mem_filter.1 this).2
    have hpn : ps[n]? = some ps[n] := by simp
    split
    · rename_i hany
      refine ⟨?_, ?_, ?_⟩
      · intro g hg
        obtain ⟨g0, hg0, rfl⟩ := List.mem_map.1 hg
        obtain ⟨b, hb, hne, hf⟩ := h1 g0 hg0
        have hh := hhead g0 hg0 b hf hne
        refine ⟨b, hb, ?_, ?_⟩
        · split <;> simp [hne]
        · rw [List.filter_append, ← hf]
          by_cases hbn : ps[n] = b
          · have : (g0.head?.bind fun k => ps[k]?) = ps[n]? := by rw [hh, hpn, hbn]
            rw [if_pos this]; simp [hpn, hbn]
          · have : ¬ (g0.head?.bind fun k => ps[k]?) = ps[n]? := by
              rw [hh, hpn]; simpa using fun h => hbn h.symm
            rw [if_neg this]; simp [hpn, hbn]
      · intro i hi
        rcases Nat.lt_succ_iff_lt_or_eq.1 hi with hi | rfl
        · obtain ⟨g, hg, hig⟩ := h2 i hi
          refine ⟨_, List.mem_map.2 ⟨g, hg, rfl⟩, ?_⟩
          split <;> simp [hig]
        · rw [List.any_eq_true] at hany
          obtain ⟨g, hg, hs⟩ := hany
          refine ⟨_, List.mem_map.2 ⟨g, hg, rfl⟩, ?_⟩
          simp only [decide_eq_true_eq] at hs
          rw [if_pos hs]; simp
      · rw [List.pairwise_map]
        rw [List.pairwise_iff_forall_sublist] at h3 ⊢
        intro a b hab
        have hd := h3 hab
        have ha := hab.subset (show a ∈ [a, b] by simp)
        have hb := hab.subset (show b ∈ [a, b] by simp)
        obtain ⟨x, -, hax, hfx⟩ := h1 a ha
        obtain ⟨y, -, hby, hfy⟩ := h1 b hb
        have hxy : x ≠ y := by
          rintro rfl
          have : a = b := hfx.trans hfy.symm
          subst this
          obtain ⟨k, t, rfl⟩ := List.exists_cons_of_ne_nil hax
          exact hd (List.mem_cons_self) (List.mem_cons_self)
        have hna : n ∉ a := by rw [hfx]; simp
        have hnb : n ∉ b := by rw [hfy]; simp
        have hhx := hhead a ha x hfx hax
        have hhy := hhead b hb y hfy hby
        rw [hhx, hhy]
        rw [List.disjoint_left] at hd ⊢
        intro i hi hj
        by_cases hx : some x = ps[n]? <;> by_cases hy : some y = ps[n]?
        · exact hxy (by simpa using hx.trans hy.symm)
        · rw [if_pos hx] at hi; rw [if_neg hy] at hj
          rcases List.mem_append.1 hi with hi | hi
          · exact hd hi hj
          · simp only [List.mem_singleton] at hi; subst hi; exact hnb hj
        · rw [if_neg hx] at hi; rw [if_pos hy] at hj
          rcases List.mem_append.1 hj with hj | hj
          · exact hd hi hj
          · simp only [List.mem_singleton] at hj; subst hj; exact hna hi
        · rw [if_neg hx] at hi; rw [if_neg hy] at hj; exact hd hi hj
    · rename_i hany
      simp only [List.any_eq_true, decide_eq_true_eq, not_exists, not_and] at hany
      have hnone : ∀ i < n, ps[i]? ≠ some ps[n] := by
        intro i hi h
        obtain ⟨g, hg, hig⟩ := h2 i hi
        obtain ⟨b, -, hne, hf⟩ := h1 g hg
        have hib : ps[i]? = some b := by
          rw [hf] at hig; simpa using (List.mem_filter.1 hig).2
        apply hany g hg
        rw [hhead g hg b hf hne, hpn, ← hib, h]
      refine ⟨?_, ?_, ?_⟩
      · intro g hg
        rcases List.mem_append.1 hg with hg | hg
        · obtain ⟨b, hb, hne, hf⟩ := h1 g hg
          refine ⟨b, hb, hne, ?_⟩
          rw [List.filter_append, ← hf]
          have : ps[n] ≠ b := by
            rintro rfl
            exact hany g hg (by rw [hhead g hg _ hf hne, hpn])
          simp [hpn, this]
        · simp only [List.mem_singleton] at hg
          subst hg
          refine ⟨ps[n], by simp, by simp, ?_⟩
          rw [List.filter_append]
          have : (List.range n).filter (fun i => ps[i]? = some ps[n]) = [] := by
            rw [List.filter_eq_nil_iff]
            intro i hi
            simpa using hnone i (List.mem_range.1 hi)
          rw [this]; simp
      · intro i hi
        rcases Nat.lt_succ_iff_lt_or_eq.1 hi with hi | rfl
        · obtain ⟨g, hg, hig⟩ := h2 i hi
          exact ⟨g, by simp [hg], hig⟩
        · exact ⟨[i], by simp, by simp⟩
      · rw [List.pairwise_append]
        refine ⟨h3, by simp, ?_⟩
        intro g hg h hh
        simp only [List.mem_singleton] at hh
        subst hh
        obtain ⟨b, -, -, hf⟩ := h1 g hg
        rw [List.disjoint_singleton, hf]
        simp

/-- **C46.** The groups used for isospin symmetrisation partition the final-state particles: every
particle is in exactly one group, and each group consists of all particles with one (I, J, P). -/
theorem groupsByJPI_partition {β : Type} [DecidableEq β] (ps : List β) :
    (∀ g ∈ groupsByJPI ps, ∃ b ∈ ps, g ≠ [] ∧ ∀ i, i ∈ g ↔ ps[i]? = some b) ∧
    (∀ i < ps.length, ∃ g ∈ groupsByJPI ps, i ∈ g) ∧
    (groupsByJPI ps).Pairwise List.Disjoint := by
  obtain ⟨h1, h2, h3⟩ := groupsByJPI_mem_aux ps ps.length le_rfl
  refine ⟨?_, h2, h3⟩
  intro g hg
  obtain ⟨b, hb, hne, hf⟩ := h1 g hg
  refine ⟨b, hb, hne, fun i => ?_⟩
  rw [hf]
  simp only [List.mem_filter, List.mem_range, decide_eq_true_eq, and_iff_right_iff_imp]
  intro h
  exact (List.getElem?_eq_some_iff.1 h).1

example : groupsByJPI ["pi", "pi", "K", "pi"] = [[0, 1, 3], [2]] := by decide

end Rpwa.Sym

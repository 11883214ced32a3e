import Verif.Spec.BestResult
import Verif.Lemmas.Outcome
/-! # Lemmas: scanning fit results -/
namespace Rpwa.Best

variable {κ π : Type} [DecidableEq κ]

abbrev Entry (κ π : Type) := Attempt κ π × ℕ × ℕ

/-- entries with their positions. -/
def entriesOf (trees : List (List (Attempt κ π))) : List (Entry κ π) :=
  trees.zipIdx.flatMap fun t => t.1.zipIdx.map fun e => (e.1, t.2, e.2)

theorem scan_eq (o : Options) (trees : List (List (Attempt κ π))) : scan o trees = (entriesOf trees).foldl (scanEntry o) Scan.empty := by
  unfold scan entriesOf
  rw [List.foldl_flatMap]
  congr 1
  funext s t
  rw [List.foldl_map]

theorem entriesOf_mem {trees : List (List (Attempt κ π))} {e : Entry κ π} (h : e ∈ entriesOf trees) : getEntry trees e.2 = .ok e.1 := by
  simp only [entriesOf, List.mem_flatMap, List.mem_map, List.mem_zipIdx_iff_getElem?, Prod.exists] at h
  obtain ⟨t, i, ht, a, j, ha, rfl⟩ := h
  simp only [getEntry]
  rw [ht]; simp only; rw [ha]

theorem entriesOf_fst (trees : List (List (Attempt κ π))) : (entriesOf trees).map Prod.fst = trees.flatten := by
  unfold entriesOf
  rw [List.map_flatMap]
  have : ∀ (ts : List (List (Attempt κ π))) (n : ℕ), (ts.zipIdx n).flatMap (fun t => List.map Prod.fst (t.1.zipIdx.map fun e => (e.1, t.2, e.2))) = ts.flatten := by
    intro ts
    induction ts with
    | nil => intro n; rfl
    | cons t ts ih =>
      intro n
      rw [List.zipIdx_cons, List.flatMap_cons, ih, List.flatten_cons, List.map_map]
      congr 1
      exact List.zipIdx_map_fst 0 t
  exact this trees 0

/-- is the entry used for bin `k`? -/
def uses (o : Options) (k : κ) (e : Entry κ π) : Bool := decide ((e.1.bin = k) ∧ (o.onlyConverged = true → e.1.converged = true))

/-- the entries of bin `k`. -/
def binEntries (o : Options) (D : List (Entry κ π)) (k : κ) : List (Entry κ π) := D.filter (uses o k)

/-- first best of a list of entries. -/
def FirstBestE (p : Attempt κ π → Prop) (A : List (Entry κ π)) (n : ℕ) (e : Entry κ π) : Prop :=
  A[n]? = some e ∧ p e.1 ∧ ∀ m b, A[m]? = some b → p b.1 → e.1.logL ≤ b.1.logL ∧ (m < n → e.1.logL < b.1.logL)

/-- what the maps hold for a bin with entries `A`. -/
def Holds (p : Attempt κ π → Prop) (iter : Bool) (A : List (Entry κ π)) : Option BestSoFar → Prop
  | none => ∀ e ∈ A, ¬ p e.1
  | some b => ∃ n e, FirstBestE p A n e ∧ b.logL = e.1.logL ∧ b.entry = e.2 ∧ (iter = true → b.iter = n)

theorem holds_skip {p : Attempt κ π → Prop} {it : Bool} {A : List (Entry κ π)} {b : Option BestSoFar} (h : Holds p it A b) (e : Entry κ π) (he : ¬ p e.1) :
    Holds p it (A ++ [e]) b := by
  cases b with
  | none =>
    intro x hx
    rcases List.mem_append.1 hx with hx | hx
    · exact h x hx
    · rw [List.mem_singleton.1 hx]; exact he
  | some b =>
    obtain ⟨n, f, ⟨h1, h2, h3⟩, h4⟩ := h
    have hn := (List.getElem?_eq_some_iff.1 h1).1
    refine ⟨n, f, ⟨by rw [List.getElem?_append_left hn]; exact h1, h2, ?_⟩, h4⟩
    intro m b' hm hb
    by_cases hlt : m < A.length
    · rw [List.getElem?_append_left hlt] at hm
      exact h3 m b' hm hb
    · rw [List.getElem?_append_right (by omega)] at hm
      have : b' = e := by
        have := List.mem_of_getElem? hm
        simpa using this
      exact absurd (this ▸ hb) he

theorem holds_improve {p : Attempt κ π → Prop} {it : Bool} {A : List (Entry κ π)} (m : κ → Option BestSoFar) (k : κ) (h : Holds p it A (m k)) (e : Entry κ π)
    (he : p e.1) (i : ℕ) (hi : it = true → i = A.length) : Holds p it (A ++ [e]) (improve m k ⟨e.1.logL, e.2, i⟩ k) := by
  have last : ∀ (j : ℕ) (b : Entry κ π), (A ++ [e])[j]? = some b → ¬ j < A.length → j = A.length ∧ b = e := by
    intro j b hb hj
    have hl := (List.getElem?_eq_some_iff.1 hb).1
    simp at hl
    have hj' : j = A.length := by omega
    subst hj'
    rw [List.getElem?_append_right (le_refl _)] at hb
    simpa using hb.symm
  have new : (∀ (j : ℕ) (b : Entry κ π), A[j]? = some b → p b.1 → e.1.logL < b.1.logL) → Holds p it (A ++ [e]) (some ⟨e.1.logL, e.2, i⟩) := by
    intro hb
    refine ⟨A.length, e, ⟨by rw [List.getElem?_append_right (le_refl _)]; simp, he, ?_⟩, rfl, rfl, hi⟩
    intro j b hj hpb
    by_cases hlt : j < A.length
    · rw [List.getElem?_append_left hlt] at hj
      exact ⟨(hb j b hj hpb).le, fun _ => hb j b hj hpb⟩
    · obtain ⟨rfl, rfl⟩ := last j b hj hlt
      exact ⟨le_refl _, fun h => absurd h (lt_irrefl _)⟩
  unfold improve
  cases hm : m k with
  | none =>
    rw [hm] at h
    simp only [Function.update_self]
    exact new fun j b hj hpb => absurd hpb (h b (List.mem_of_getElem? hj))
  | some old =>
    rw [hm] at h
    obtain ⟨n, f, ⟨h1, h2, h3⟩, h4, h5, h6⟩ := h
    by_cases hlt : e.1.logL < old.logL
    · simp only [if_pos hlt, Function.update_self]
      exact new fun j b hj hpb => lt_of_lt_of_le (h4 ▸ hlt) (h3 j b hj hpb).1
    · simp only [if_neg hlt]
      rw [hm]
      have hn := (List.getElem?_eq_some_iff.1 h1).1
      refine ⟨n, f, ⟨by rw [List.getElem?_append_left hn]; exact h1, h2, ?_⟩, h4, h5, h6⟩
      intro j b hj hpb
      by_cases hjl : j < A.length
      · rw [List.getElem?_append_left hjl] at hj
        exact h3 j b hj hpb
      · obtain ⟨rfl, rfl⟩ := last j b hj hjl
        exact ⟨h4 ▸ not_lt.1 hlt, fun h => absurd (lt_trans hn h) (lt_irrefl _)⟩

theorem improve_other (m : κ → Option BestSoFar) (k k' : κ) (b : BestSoFar) (h : k' ≠ k) : improve m k b k' = m k' := by
  unfold improve
  cases m k with
  | none => simp [h]
  | some old =>
    simp only
    split_ifs <;> simp [h]

/-- invariant of the scan. -/
structure Inv (o : Options) (D : List (Entry κ π)) (s : Scan κ π) : Prop where
  lists : ∀ k, s.lists k = if o.onlyBest then [] else (binEntries o D k).map fun e => ⟨e.1, !o.strip⟩
  all : ∀ k, k ∈ s.all ↔ binEntries o D k ≠ []
  nodup : s.all.Nodup
  best : ∀ k, Holds (fun _ => True) (!o.onlyBest) (binEntries o D k) (s.best k)
  bestConv : o.onlyBest = false → ∀ k, Holds (fun a => a.converged = true) true (binEntries o D k) (s.bestConv k)

theorem Inv.step {o : Options} {D : List (Entry κ π)} {s : Scan κ π} (h : Inv o D s) (e : Entry κ π) : Inv o (D ++ [e]) (scanEntry o s e) := by
  unfold scanEntry
  by_cases hc : (o.onlyConverged && !e.1.converged) = true
  · rw [if_pos hc]
    have hu : ∀ k, uses o k e = false := by
      intro k
      simp only [Bool.and_eq_true, Bool.not_eq_true'] at hc
      unfold uses
      rw [decide_eq_false_iff_not]
      rintro ⟨-, h⟩
      rw [h hc.1] at hc
      exact absurd hc.2 (by decide)
    have hb : ∀ k, binEntries o (D ++ [e]) k = binEntries o D k := by
      intro k
      unfold binEntries
      rw [List.filter_append]
      simp [hu k]
    exact ⟨fun k => by rw [hb]; exact h.lists k, fun k => by rw [hb]; exact h.all k, h.nodup, fun k => by rw [hb]; exact h.best k,
      fun ho k => by rw [hb]; exact h.bestConv ho k⟩
  · have hu : ∀ k, uses o k e = decide (e.1.bin = k) := by
      intro k
      unfold uses
      congr 1
      rw [eq_iff_iff]
      constructor
      · exact fun h => h.1
      · refine fun h => ⟨h, fun hon => ?_⟩
        rw [hon] at hc
        simpa using hc
    have hself : binEntries o (D ++ [e]) e.1.bin = binEntries o D e.1.bin ++ [e] := by
      unfold binEntries
      rw [List.filter_append]
      simp [hu]
    have hother : ∀ k, k ≠ e.1.bin → binEntries o (D ++ [e]) k = binEntries o D k := by
      intro k hk
      unfold binEntries
      rw [List.filter_append]
      simp [hu, Ne.symm hk]
    have hall : ∀ k, k ∈ (if e.1.bin ∈ s.all then s.all else s.all ++ [e.1.bin]) ↔ binEntries o (D ++ [e]) k ≠ [] := by
      intro k
      by_cases hk : k = e.1.bin
      · subst hk
        rw [hself]
        split_ifs with hm
        · simpa using hm
        · simp
      · rw [hother k hk, ← h.all k]
        split_ifs
        · rfl
        · simp [hk]
    have hnd : (if e.1.bin ∈ s.all then s.all else s.all ++ [e.1.bin]).Nodup := by
      split_ifs with hm
      · exact h.nodup
      · rw [List.nodup_append]
        refine ⟨h.nodup, by simp, ?_⟩
        intro a ha b hb
        rw [List.mem_singleton.1 hb]
        exact fun hab => hm (hab ▸ ha)
    rw [if_neg hc]
    dsimp only
    by_cases hob : o.onlyBest = true
    · rw [if_pos hob]
      refine ⟨?_, hall, hnd, ?_, fun h => absurd h (by simp [hob])⟩
      · intro k
        have := h.lists k
        rw [if_pos hob] at this ⊢
        exact this
      · intro k
        by_cases hk : k = e.1.bin
        · subst hk
          rw [hself]
          exact holds_improve _ _ (h.best e.1.bin) e trivial _ (by simp [hob])
        · rw [hother k hk]
          refine Eq.mpr (congrArg _ (improve_other _ _ _ _ hk)) (h.best k)
    · have hob' : o.onlyBest = false := by simpa using hob
      have hlen : (s.lists e.1.bin).length = (binEntries o D e.1.bin).length := by
        rw [h.lists]; simp [hob']
      rw [if_neg hob]
      refine ⟨?_, hall, hnd, ?_, ?_⟩
      · intro k
        rw [if_neg hob]
        show Function.update s.lists e.1.bin _ k = _
        by_cases hk : k = e.1.bin
        · subst hk
          rw [Function.update_self, hself, List.map_append, h.lists]
          simp [hob']
        · rw [Function.update_of_ne hk, hother k hk, h.lists]
          simp [hob']
      · intro k
        by_cases hk : k = e.1.bin
        · subst hk
          rw [hself]
          exact holds_improve _ _ (h.best e.1.bin) e trivial _ (fun _ => hlen)
        · rw [hother k hk]
          exact Eq.mpr (congrArg _ (improve_other _ _ _ _ hk)) (h.best k)
      · intro _ k
        have hc := h.bestConv hob'
        show Holds _ _ _ ((if e.1.converged = true then improve s.bestConv e.1.bin _ else s.bestConv) k)
        by_cases hcv : e.1.converged = true
        · rw [if_pos hcv]
          by_cases hk : k = e.1.bin
          · subst hk
            rw [hself]
            exact holds_improve _ _ (hc _) e hcv _ (fun _ => hlen)
          · rw [hother k hk, improve_other _ _ _ _ hk]
            exact hc k
        · rw [if_neg hcv]
          by_cases hk : k = e.1.bin
          · subst hk
            rw [hself]
            exact holds_skip (hc _) e (by simpa using hcv)
          · rw [hother k hk]
            exact hc k

theorem inv_scan (o : Options) (trees : List (List (Attempt κ π))) : Inv o (entriesOf trees) (scan o trees) := by
  rw [scan_eq]
  have : ∀ (L D : List (Entry κ π)) (s : Scan κ π), Inv o D s → Inv o (D ++ L) (L.foldl (scanEntry o) s) := by
    intro L
    induction L with
    | nil => intro D s h; simpa using h
    | cons e L ih =>
      intro D s h
      have := ih (D ++ [e]) _ (h.step e)
      simpa [List.append_assoc] using this
  have h := this (entriesOf trees) [] Scan.empty ⟨fun k => by simp [Scan.empty, binEntries], fun k => by simp [Scan.empty, binEntries], by simp [Scan.empty],
    fun k => by simp [Scan.empty, Holds, binEntries], fun _ k => by simp [Scan.empty, Holds, binEntries]⟩
  simpa using h

theorem binEntries_fst (o : Options) (trees : List (List (Attempt κ π))) (k : κ) :
    (binEntries o (entriesOf trees) k).map Prod.fst = attempts o.onlyConverged trees k := by
  unfold attempts
  rw [← entriesOf_fst, List.filter_map]
  rfl

theorem firstBest_iff {p : Attempt κ π → Prop} {A : List (Entry κ π)} {n : ℕ} : FirstBest p (A.map Prod.fst) n ↔ ∃ e, FirstBestE p A n e := by
  unfold FirstBest FirstBestE
  constructor
  · rintro ⟨a, h1, h2, h3⟩
    rw [List.getElem?_map, Option.map_eq_some_iff] at h1
    obtain ⟨e, h1, rfl⟩ := h1
    refine ⟨e, h1, h2, fun m b hb hpb => h3 m b.1 ?_ hpb⟩
    rw [List.getElem?_map, hb]; rfl
  · rintro ⟨e, h1, h2, h3⟩
    refine ⟨e.1, by rw [List.getElem?_map, h1]; rfl, h2, fun m b hb hpb => ?_⟩
    rw [List.getElem?_map, Option.map_eq_some_iff] at hb
    obtain ⟨f, hf, rfl⟩ := hb
    exact h3 m f hf hpb

theorem firstBestE_unique {p : Attempt κ π → Prop} {A : List (Entry κ π)} {m n : ℕ} {e f : Entry κ π} (h : FirstBestE p A m e) (h' : FirstBestE p A n f) : m = n := by
  rcases lt_trichotomy m n with hlt | rfl | hlt
  · exact absurd ((h'.2.2 m e h.1 h.2.1).2 hlt) (not_lt.2 (h.2.2 n f h'.1 h'.2.1).1)
  · rfl
  · exact absurd ((h.2.2 n f h'.1 h'.2.1).2 hlt) (not_lt.2 (h'.2.2 m e h.1 h.2.1).1)

/-! ### stable sorting -/

theorem orderedInsert_filter (x : Stored κ π) (l : List (Stored κ π)) (v : ℝ) (hl : l.Pairwise (fun x y => x.result.logL ≤ y.result.logL)) :
    (l.orderedInsert (fun x y => x.result.logL ≤ y.result.logL) x).filter (fun x => decide (x.result.logL = v)) =
      (x :: l).filter (fun x => decide (x.result.logL = v)) := by
  induction l with
  | nil => rfl
  | cons y l ih =>
    rw [List.orderedInsert_cons]
    split_ifs with h
    · rfl
    · rw [List.filter_cons, ih (List.pairwise_cons.1 hl).2, List.filter_cons, List.filter_cons, List.filter_cons]
      have hne : ¬ (x.result.logL = v ∧ y.result.logL = v) := by
        rintro ⟨h1, h2⟩
        exact h (by rw [h1, h2])
      by_cases h1 : x.result.logL = v <;> by_cases h2 : y.result.logL = v
      · exact absurd ⟨h1, h2⟩ hne
      all_goals simp [h1, h2]

theorem stableSorted_insertionSort (l : List (Stored κ π)) : StableSorted l (l.insertionSort (fun x y => x.result.logL ≤ y.result.logL)) := by
  let r : Stored κ π → Stored κ π → Prop := fun x y => x.result.logL ≤ y.result.logL
  have : IsTrans (Stored κ π) r := ⟨fun _ _ _ h1 h2 => le_trans h1 h2⟩
  have : Std.Total (α := Stored κ π) r := ⟨fun a b => le_total a.result.logL b.result.logL⟩
  refine ⟨List.perm_insertionSort _ l, List.pairwise_insertionSort r l, ?_⟩
  intro v
  induction l with
  | nil => rfl
  | cons x l ih =>
    rw [List.insertionSort_cons, orderedInsert_filter _ _ _ (List.pairwise_insertionSort r l), List.filter_cons, ih, List.filter_cons]

end Rpwa.Best

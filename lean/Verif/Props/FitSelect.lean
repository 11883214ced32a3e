import Verif.Spec.FitSelect
import Verif.Props.BestResult
/-! # C91: which fit and which waves a script uses -/
namespace Rpwa.Select

open Rpwa.Fit Rpwa.PwaFit

section Best

theorem bestEntry_skip (mc : Option ℝ) (b : Option FitResult) {r : FitResult} (h : r.converged = false) : bestEntry mc b r = b := by
  unfold bestEntry; rw [h]; rfl

theorem bestEntry_first (mc : Option ℝ) {r : FitResult} (h : r.converged = true) : bestEntry mc none r = some r := by
  unfold bestEntry; rw [h]; rfl

open Classical in
theorem bestEntry_cmp (mc : Option ℝ) (b r : FitResult) (h : r.converged = true) :
    bestEntry mc (some b) r = if Better mc r b then some r else some b := by
  unfold bestEntry Better distance
  rw [h]
  cases mc with
  | none => simp
  | some m =>
    simp only [Bool.not_true, Bool.false_eq_true, if_false]
    by_cases h1 : |m - massBinCenter r| < |m - massBinCenter b|
    · rw [if_pos h1, if_pos (Or.inl h1)]
    · rw [if_neg h1]
      by_cases h2 : |m - massBinCenter r| = |m - massBinCenter b|
      · rw [if_pos h2]
        by_cases h3 : r.logLikelihood < b.logLikelihood
        · rw [if_pos h3, if_pos (Or.inr ⟨h2, h3⟩)]
        · rw [if_neg h3, if_neg (by rintro (h | h); exacts [h1 h, h3 h.2])]
      · rw [if_neg h2, if_neg (by rintro (h | h); exacts [h1 h, h2 h.1])]

theorem Better.trans {mc : Option ℝ} {a b c : FitResult} (h : Better mc a b) (h' : Better mc b c) : Better mc a c := by
  rcases h with h | ⟨h, h1⟩ <;> rcases h' with h' | ⟨h', h2⟩
  · exact .inl (h.trans h')
  · exact .inl (h'  ▸ h)
  · exact .inl (h ▸ h')
  · exact .inr ⟨h.trans h', h1.trans h2⟩

theorem Better.irrefl {mc : Option ℝ} {a : FitResult} : ¬ Better mc a a := by
  rintro (h | ⟨-, h⟩) <;> exact lt_irrefl _ h

theorem Better.of_not {mc : Option ℝ} {a b c : FitResult} (h : ¬ Better mc b a) (h' : Better mc b c) : Better mc a c := by
  unfold Better at *
  push Not at h
  rcases lt_trichotomy (distance mc a) (distance mc b) with h1 | h1 | h1
  · rcases h' with h2 | h2
    · exact .inl (h1.trans h2)
    · exact .inl (h2.1 ▸ h1)
  · have h3 := h.2 h1.symm
    rcases h' with h2 | h2
    · exact .inl (h1 ▸ h2)
    · exact .inr ⟨h1.trans h2.1, lt_of_le_of_lt h3 h2.2⟩
  · exact absurd h.1 (not_le.2 h1)

/-- the two cases of the loop. -/
def State (mc : Option ℝ) (es : List FitResult) (b : Option FitResult) : Prop :=
  match b with
  | none => ∀ r ∈ es, r.converged = false
  | some r => ∃ i, Chosen mc es i r

theorem state_snoc (mc : Option ℝ) (es : List FitResult) (b : Option FitResult) (x : FitResult) (h : State mc es b) :
    State mc (es ++ [x]) (bestEntry mc b x) := by
  have old : ∀ {j r'}, (es ++ [x])[j]? = some r' → es[j]? = some r' ∨ j = es.length ∧ r' = x := by
    intro j r' h
    rcases lt_or_ge j es.length with h1 | h1
    · rw [List.getElem?_append_left h1] at h; exact .inl h
    · rw [List.getElem?_append_right h1] at h
      have h2 : j - es.length = 0 := by
        by_contra h2
        rw [List.getElem?_eq_none (by simp; omega)] at h; exact absurd h (by simp)
      rw [h2] at h
      exact .inr ⟨by omega, by simpa using h.symm⟩
  by_cases hc : x.converged = true
  · cases b with
    | none =>
      rw [bestEntry_first mc hc]
      refine ⟨es.length, by simp, hc, fun j r' hj hr => ?_⟩
      rcases old hj with h1 | ⟨h1, rfl⟩
      · have := h r' (List.mem_of_getElem? h1); rw [hr] at this; cases this
      · exact ⟨Better.irrefl, fun h2 => absurd h1 h2.ne⟩
    | some b =>
      rw [bestEntry_cmp mc b x hc]
      obtain ⟨i, h1, h2, h3⟩ := h
      have hi : i < es.length := (List.getElem?_eq_some_iff.1 h1).1
      by_cases hb : Better mc x b
      · rw [if_pos hb]
        refine ⟨es.length, by simp, hc, fun j r' hj hr => ?_⟩
        rcases old hj with h4 | ⟨h4, rfl⟩
        · have h5 := h3 j r' h4 hr
          have h6 : Better mc x r' := by
            by_contra h6
            exact h5.1 (Better.of_not h6 hb)
          exact ⟨fun h7 => Better.irrefl (h6.trans h7), fun _ => h6⟩
        · exact ⟨Better.irrefl, fun h5 => absurd h4 h5.ne⟩
      · rw [if_neg hb]
        refine ⟨i, by rw [List.getElem?_append_left hi]; exact h1, h2, fun j r' hj hr => ?_⟩
        rcases old hj with h4 | ⟨h4, rfl⟩
        · exact h3 j r' h4 hr
        · exact ⟨hb, fun h5 => absurd h5 (by omega)⟩
  · have hc' : x.converged = false := by simpa using hc
    rw [bestEntry_skip mc b hc']
    cases b with
    | none =>
      intro r hr
      rcases List.mem_append.1 hr with h1 | h1
      · exact h r h1
      · rw [List.mem_singleton] at h1; rw [h1]; exact hc'
    | some b =>
      obtain ⟨i, h1, h2, h3⟩ := h
      have hi : i < es.length := (List.getElem?_eq_some_iff.1 h1).1
      refine ⟨i, by rw [List.getElem?_append_left hi]; exact h1, h2, fun j r' hj hr => ?_⟩
      rcases old hj with h4 | ⟨h4, rfl⟩
      · exact h3 j r' h4 hr
      · exact absurd hr hc

theorem state_all (mc : Option ℝ) (es : List FitResult) : State mc es (getBestFitResultFromFile mc es) := by
  induction es using List.reverseRecOn with
  | nil => intro r hr; simp at hr
  | append_singleton es x ih =>
    unfold getBestFitResultFromFile at *
    rw [List.foldl_append]
    exact state_snoc mc es _ x ih

/-- only one entry is chosen. -/
theorem chosen_unique {mc : Option ℝ} {es : List FitResult} {i j : ℕ} {r s : FitResult} (h : Chosen mc es i r) (h' : Chosen mc es j s) :
    i = j ∧ r = s := by
  have h1 := h.2.2 j s h'.1 h'.2.1
  have h2 := h'.2.2 i r h.1 h.2.1
  have : i = j := by
    rcases lt_trichotomy i j with h3 | h3 | h3
    · exact absurd (h2.2 h3) h1.1
    · exact h3
    · exact absurd (h1.2 h3) h2.1
  subst this
  exact ⟨rfl, Option.some.inj (h.1.symm.trans h'.1)⟩

/-- **C91.** The result that is returned is the first of the best ones: it has converged, no other result that has converged is nearer to
the mass that was asked for, or as near with a smaller negative log-likelihood. -/
theorem best_result_iff (mc : Option ℝ) (es : List FitResult) (r : FitResult) :
    getBestFitResultFromFile mc es = some r ↔ ∃ i, Chosen mc es i r := by
  have h := state_all mc es
  constructor
  · intro h1; rw [h1] at h; exact h
  · rintro ⟨i, hi⟩
    cases h1 : getBestFitResultFromFile mc es with
    | none => rw [h1] at h; have := h r (List.mem_of_getElem? hi.1); rw [hi.2.1] at this; cases this
    | some s =>
      rw [h1] at h
      obtain ⟨j, hj⟩ := h
      rw [(chosen_unique hi hj).2]

/-- **C91.** `None` is returned iff no result has converged: however far the nearest result is, it is returned. -/
theorem no_result_iff (mc : Option ℝ) (es : List FitResult) :
    getBestFitResultFromFile mc es = none ↔ ∀ r ∈ es, r.converged = false := by
  have h := state_all mc es
  constructor
  · intro h1; rw [h1] at h; exact h
  · intro h1
    cases h2 : getBestFitResultFromFile mc es with
    | none => rfl
    | some s =>
      rw [h2] at h
      obtain ⟨i, hi⟩ := h
      have := h1 s (List.mem_of_getElem? hi.1); rw [hi.2.1] at this; cases this

/-- **C91.** Results that have not converged change nothing. -/
theorem best_filter (mc : Option ℝ) (es : List FitResult) :
    getBestFitResultFromFile mc (es.filter fun r => r.converged) = getBestFitResultFromFile mc es := by
  unfold getBestFitResultFromFile
  rw [List.foldl_filter]
  congr 1
  funext b r
  by_cases h : r.converged = true
  · rw [if_pos h]
  · rw [if_neg h, bestEntry_skip mc b (by simpa using h)]

end Best

section Results
open Rpwa.Best
variable {κ π : Type} [DecidableEq κ]

/-- what the loop over the bins does. -/
theorem bins_loop (center : κ → Option ℝ) : ∀ (bins : List (κ × List (Stored κ π))) (d : ℝ → Option (Attempt κ π)),
    (∀ e ∈ bins, (center e.1).isSome ∧ e.2 ≠ []) →
    ∃ d', bins.foldlM (bestOfBin center) d = .ok d' ∧ ∀ m, (∀ e ∈ bins, center e.1 ≠ some m) → d' m = d m
  | [], d, _ => ⟨d, rfl, fun _ _ => rfl⟩
  | (k, l) :: bins, d, h => by
    obtain ⟨m, hm⟩ := Option.isSome_iff_exists.1 (h _ List.mem_cons_self).1
    obtain ⟨s, l', hl⟩ := List.exists_cons_of_ne_nil (h _ List.mem_cons_self).2
    dsimp only at hm hl
    obtain ⟨d', h1, h2⟩ := bins_loop center bins (dictSet d m s.result) fun e he => h e (List.mem_cons_of_mem _ he)
    have h0 : bestOfBin center d (k, l) = .ok (dictSet d m s.result) := by
      unfold bestOfBin; dsimp only; rw [hm, hl]
    refine ⟨d', ?_, fun x hx => ?_⟩
    · rw [List.foldlM_cons, h0]; exact h1
    · rw [h2 x fun e he => hx e (List.mem_cons_of_mem _ he)]
      unfold dictSet
      rw [Function.update_of_ne]
      intro h3
      exact hx (k, l) List.mem_cons_self (by rw [h3]; exact hm)

/-- the last bin with a mass centre wins. -/
theorem bins_last (center : κ → Option ℝ) (pre post : List (κ × List (Stored κ π))) (k : κ) (s : Stored κ π) (l : List (Stored κ π)) (m : ℝ)
    (hm : center k = some m) (h : ∀ e ∈ pre ++ (k, s :: l) :: post, (center e.1).isSome ∧ e.2 ≠ [])
    (hp : ∀ e ∈ post, center e.1 ≠ some m) (d : ℝ → Option (Attempt κ π)) :
    ∃ d', (pre ++ (k, s :: l) :: post).foldlM (bestOfBin center) d = .ok d' ∧ d' m = some s.result := by
  obtain ⟨d1, h1, -⟩ := bins_loop center pre d fun e he => h e (List.mem_append_left _ he)
  obtain ⟨d2, h3, h4⟩ := bins_loop center post (dictSet d1 m s.result) fun e he =>
    h e (List.mem_append_right _ (List.mem_cons_of_mem _ he))
  refine ⟨d2, ?_, ?_⟩
  · have h0 : bestOfBin center d1 (k, s :: l) = .ok (dictSet d1 m s.result) := by
      unfold bestOfBin; dsimp only; rw [hm]
    rw [List.foldlM_append, h1]
    show ((k, s :: l) :: post).foldlM (bestOfBin center) d1 = _
    rw [List.foldlM_cons, h0]
    exact h3
  · rw [h4 m hp]; unfold dictSet; rw [Function.update_self]

/-- the bins that the library call returns. -/
theorem bins_spec (tree : List (Attempt κ π)) : ∃ bins, getFitResults ⟨true, false, true⟩ [tree] = .ok bins ∧ (bins.map Prod.fst).Nodup ∧
    (∀ k, k ∈ bins.map Prod.fst ↔ ∃ a ∈ tree, a.bin = k ∧ a.converged = true) ∧
    ∀ e ∈ bins, ∃ s, e.2 = [s] ∧ BestOfBin tree e.1 s.result := by
  obtain ⟨res, h1, h2, h3, h4⟩ := getFitResults_spec ⟨true, false, true⟩ [tree]
  refine ⟨res, h1, h2, fun k => ?_, fun e he => ?_⟩
  · rw [h3 k]
    unfold attempts
    rw [ne_eq, List.filter_eq_nil_iff]
    push Not
    simp
  · have h5 := h4 e.1 e.2 he
    unfold BinResult at h5
    rw [if_pos rfl] at h5
    obtain ⟨n, a, h6, h7, h8⟩ := h5
    exact ⟨⟨a, true⟩, h8, n, h6, h7⟩

theorem bestOfBin_unique {tree : List (Attempt κ π)} {k : κ} {a b : Attempt κ π} (ha : BestOfBin tree k a) (hb : BestOfBin tree k b) : a = b := by
  obtain ⟨n, ⟨x, h1, -, h2⟩, h3⟩ := ha
  obtain ⟨m, ⟨y, h4, -, h5⟩, h6⟩ := hb
  have hx : x = a := Option.some.inj (h1.symm.trans h3)
  have hy : y = b := Option.some.inj (h4.symm.trans h6)
  subst hx; subst hy
  have h7 := h2 m y h4 trivial
  have h8 := h5 n x h1 trivial
  have : n = m := by
    rcases lt_trichotomy n m with h | h | h
    · exact absurd (h8.2 h) (not_lt.2 h7.1)
    · exact h
    · exact absurd (h7.2 h) (not_lt.2 h8.1)
  subst this
  exact Option.some.inj (h1.symm.trans h4)

theorem bestOfBin_converged {tree : List (Attempt κ π)} {k : κ} {a : Attempt κ π} (ha : BestOfBin tree k a) :
    a ∈ tree ∧ a.bin = k ∧ a.converged = true := by
  obtain ⟨n, -, h3⟩ := ha
  have h := List.mem_of_getElem? h3
  unfold attempts at h
  simpa using h

/-- **C91.** The dictionary of the best results has a key for every mass centre of a bin with a result that has converged, and no other; the
value is the best result of a bin with this centre.  Bins without a mass are refused. -/
theorem best_results (center : κ → Option ℝ) (order : List (κ × List (Stored κ π)) → List (κ × List (Stored κ π)))
    (ho : ∀ l, (order l).Perm l) (tree : List (Attempt κ π)) (hc : ∀ a ∈ tree, a.converged = true → (center a.bin).isSome) :
    ∃ d, getBestFitResultsFromFile center order tree = .ok d ∧
      (∀ m, d m ≠ none ↔ ∃ a ∈ tree, a.converged = true ∧ center a.bin = some m) ∧
      ∀ m a, d m = some a → center a.bin = some m ∧ BestOfBin tree a.bin a := by
  obtain ⟨bins, h1, h2, h3, h4⟩ := bins_spec tree
  have hb : ∀ e ∈ order bins, (center e.1).isSome ∧ e.2 ≠ [] := by
    intro e he
    have he' := (ho bins).mem_iff.1 he
    obtain ⟨a, ha, rfl', hac⟩ := (h3 e.1).1 (List.mem_map_of_mem he')
    obtain ⟨s, hs, -⟩ := h4 e he'
    exact ⟨rfl' ▸ hc a ha hac, by rw [hs]; simp⟩
  have hrun : getBestFitResultsFromFile center order tree = (order bins).foldlM (bestOfBin center) fun _ => none := by
    unfold getBestFitResultsFromFile; rw [h1]; rfl
  obtain ⟨d, hd, hnone⟩ := bins_loop center (order bins) (fun _ => none) hb
  -- the value of a key
  have key : ∀ m, (∃ e ∈ order bins, center e.1 = some m) → ∃ a, d m = some a ∧ center a.bin = some m ∧ BestOfBin tree a.bin a := by
    intro m hm
    obtain ⟨pre, e, post, hsplit, hem, hpost⟩ : ∃ pre e post, order bins = pre ++ e :: post ∧ center e.1 = some m ∧
        ∀ x ∈ post, center x.1 ≠ some m := by
      generalize order bins = l at hm
      induction l with
      | nil => simp at hm
      | cons x l ih =>
        by_cases h5 : ∃ e ∈ l, center e.1 = some m
        · obtain ⟨pre, e, post, h6, h7, h8⟩ := ih h5
          exact ⟨x :: pre, e, post, by rw [h6]; rfl, h7, h8⟩
        · push Not at h5
          obtain ⟨e, he, hem⟩ := hm
          rcases List.mem_cons.1 he with rfl | he
          · exact ⟨[], e, l, rfl, hem, h5⟩
          · exact absurd hem (h5 e he)
    have heb : e ∈ bins := (ho bins).mem_iff.1 (by rw [hsplit]; simp)
    obtain ⟨s, hs, hbest⟩ := h4 e heb
    have he : e = (e.1, s :: []) := by rw [← hs]
    rw [he] at hsplit
    obtain ⟨d', h5, h6⟩ := bins_last center pre post e.1 s [] m hem (by rw [← hsplit]; exact hb) hpost fun _ => none
    rw [← hsplit, hd] at h5
    cases h5
    have h7 := bestOfBin_converged hbest
    refine ⟨s.result, h6, ?_, ?_⟩
    · rw [h7.2.1]; exact hem
    · rw [h7.2.1]; exact hbest
  have hex : ∀ m, (∃ e ∈ order bins, center e.1 = some m) ↔ ∃ a ∈ tree, a.converged = true ∧ center a.bin = some m := by
    intro m
    constructor
    · rintro ⟨e, he, hem⟩
      obtain ⟨a, ha, hae, hac⟩ := (h3 e.1).1 (List.mem_map_of_mem ((ho bins).mem_iff.1 he))
      exact ⟨a, ha, hac, hae ▸ hem⟩
    · rintro ⟨a, ha, hac, ham⟩
      obtain ⟨e, he, hek⟩ := List.mem_map.1 ((h3 a.bin).2 ⟨a, ha, rfl, hac⟩)
      exact ⟨e, (ho bins).mem_iff.2 he, by rw [hek]; exact ham⟩
  refine ⟨d, hrun.trans hd, fun m => ?_, fun m a ha => ?_⟩
  · rw [← hex m]
    constructor
    · intro h5
      by_contra h6
      push Not at h6
      exact h5 (hnone m h6)
    · intro h5
      obtain ⟨a, ha, -⟩ := key m h5
      rw [ha]; simp
  · by_cases h5 : ∃ e ∈ order bins, center e.1 = some m
    · obtain ⟨b, hb', h6⟩ := key m h5
      rw [ha] at hb'; cases hb'
      exact h6
    · push Not at h5
      rw [hnone m h5] at ha; cases ha

/-- **C91.** A converged result in a bin without mass stops the script, whatever the order of the bins. -/
theorem best_results_refused (center : κ → Option ℝ) (order : List (κ × List (Stored κ π)) → List (κ × List (Stored κ π)))
    (ho : ∀ l, (order l).Perm l) (tree : List (Attempt κ π)) (a : Attempt κ π) (ha : a ∈ tree) (hac : a.converged = true)
    (hn : center a.bin = none) : getBestFitResultsFromFile center order tree = .terminate := by
  obtain ⟨bins, h1, h2, h3, h4⟩ := bins_spec tree
  have hrun : getBestFitResultsFromFile center order tree = (order bins).foldlM (bestOfBin center) fun _ => none := by
    unfold getBestFitResultsFromFile; rw [h1]; rfl
  obtain ⟨e, he, hek⟩ := List.mem_map.1 ((h3 a.bin).2 ⟨a, ha, rfl, hac⟩)
  have hne : ∀ x ∈ order bins, x.2 ≠ [] := by
    intro x hx
    obtain ⟨s, hs, -⟩ := h4 x ((ho bins).mem_iff.1 hx)
    rw [hs]; simp
  have he' : e ∈ order bins := (ho bins).mem_iff.2 he
  rw [hrun]
  generalize order bins = l at hne he'
  generalize (fun _ => none : ℝ → Option (Attempt κ π)) = d
  induction l generalizing d with
  | nil => cases he'
  | cons x l ih =>
    rw [List.foldlM_cons]
    rcases List.mem_cons.1 he' with rfl | he'
    · have : bestOfBin center d e = .terminate := by unfold bestOfBin; rw [hek, hn]
      rw [this]; rfl
    · obtain ⟨s, l', hl⟩ := List.exists_cons_of_ne_nil (hne x List.mem_cons_self)
      cases hx : center x.1 with
      | none =>
        have : bestOfBin center d x = .terminate := by unfold bestOfBin; rw [hx]
        rw [this]; rfl
      | some m =>
        have : bestOfBin center d x = .ok (dictSet d m s.result) := by unfold bestOfBin; rw [hx, hl]
        rw [this]
        exact ih (fun y hy => hne y (List.mem_cons_of_mem _ hy)) he' _

/-- **C91.** With different mass centres nothing is lost: the best result of every bin is in the dictionary. -/
theorem best_results_complete (center : κ → Option ℝ) (order : List (κ × List (Stored κ π)) → List (κ × List (Stored κ π)))
    (ho : ∀ l, (order l).Perm l) (tree : List (Attempt κ π)) (hc : ∀ a ∈ tree, a.converged = true → (center a.bin).isSome)
    (hd : ∀ a ∈ tree, ∀ b ∈ tree, a.converged = true → b.converged = true → center a.bin = center b.bin → a.bin = b.bin) :
    ∃ d, getBestFitResultsFromFile center order tree = .ok d ∧
      ∀ m a, d m = some a ↔ center a.bin = some m ∧ BestOfBin tree a.bin a := by
  obtain ⟨d, h1, h2, h3⟩ := best_results center order ho tree hc
  refine ⟨d, h1, fun m a => ⟨h3 m a, fun ⟨h4, h5⟩ => ?_⟩⟩
  have h6 := bestOfBin_converged h5
  obtain ⟨b, hb⟩ := Option.ne_none_iff_exists'.1 ((h2 m).2 ⟨a, h6.1, h6.2.2, h4⟩)
  obtain ⟨h7, h8⟩ := h3 m b hb
  have h9 := bestOfBin_converged h8
  have h10 := hd a h6.1 b h9.1 h6.2.2 h9.2.2 (h4.trans h7.symm)
  rw [hb, bestOfBin_unique h5 (h10 ▸ h8)]

/-- **C91.** Bins with the same mass centre (they differ in another variable) overwrite each other: which one is returned depends on the order
of the dictionary, and each of them is returned for some order. -/
theorem same_centre_overwritten (center : κ → Option ℝ) (tree : List (Attempt κ π))
    (hc : ∀ a ∈ tree, a.converged = true → (center a.bin).isSome) (a : Attempt κ π) (ha : BestOfBin tree a.bin a) (m : ℝ)
    (hm : center a.bin = some m) :
    ∃ order : List (κ × List (Stored κ π)) → List (κ × List (Stored κ π)), (∀ l, (order l).Perm l) ∧
      ∃ d, getBestFitResultsFromFile center order tree = .ok d ∧ d m = some a := by
  have ho : ∀ l : List (κ × List (Stored κ π)),
      ((l.filter fun e => !decide (e.1 = a.bin)) ++ l.filter fun e => decide (e.1 = a.bin)).Perm l := fun l =>
    List.perm_append_comm.trans (List.filter_append_perm _ l)
  refine ⟨fun l => (l.filter fun e => !decide (e.1 = a.bin)) ++ l.filter fun e => decide (e.1 = a.bin), ho, ?_⟩
  obtain ⟨bins, h1, h2, h3, h4⟩ := bins_spec tree
  have h5 := bestOfBin_converged ha
  obtain ⟨e, he, hek⟩ := List.mem_map.1 ((h3 a.bin).2 ⟨a, h5.1, rfl, h5.2.2⟩)
  obtain ⟨s, hs, hbest⟩ := h4 e he
  rw [hek] at hbest
  have hsa : s.result = a := bestOfBin_unique hbest ha
  have hf : (bins.filter fun e => decide (e.1 = a.bin)) = [(a.bin, [s])] := by
    have hee : e = (a.bin, [s]) := by rw [← hek, ← hs]
    have h6 : (bins.filter fun e => decide (e.1 = a.bin)).Nodup := (List.Nodup.of_map _ h2).filter _
    refine List.perm_singleton.1 ((List.perm_ext_iff_of_nodup h6 (List.nodup_singleton _)).2 fun x => ?_)
    rw [List.mem_filter, List.mem_singleton, decide_eq_true_eq]
    constructor
    · rintro ⟨hx, hxa⟩
      rw [← hee]
      exact List.inj_on_of_nodup_map h2 hx he (hxa.trans hek.symm)
    · rintro rfl; exact ⟨hee ▸ he, rfl⟩
  have hb : ∀ e ∈ (bins.filter fun e => !decide (e.1 = a.bin)) ++ (a.bin, s :: []) :: [], (center e.1).isSome ∧ e.2 ≠ [] := by
    intro e he
    have he' : e ∈ bins := by
      refine (ho bins).mem_iff.1 ?_
      rw [hf]; exact he
    obtain ⟨x, hx, hxe, hxc⟩ := (h3 e.1).1 (List.mem_map_of_mem he')
    obtain ⟨s', hs', -⟩ := h4 e he'
    exact ⟨hxe ▸ hc x hx hxc, by rw [hs']; simp⟩
  obtain ⟨d, h7, h8⟩ := bins_last center _ [] a.bin s [] m hm hb (by simp) fun _ => none
  refine ⟨d, ?_, by rw [h8, hsa]⟩
  unfold getBestFitResultsFromFile
  rw [h1]
  show ((bins.filter fun e => !decide (e.1 = a.bin)) ++ bins.filter fun e => decide (e.1 = a.bin)).foldlM (bestOfBin center) (fun _ => none) = _
  rw [hf]
  exact h7

end Results

end Rpwa.Select

import Verif.Props.ResFitMinimize
import Mathlib.Data.List.SplitOn
/-!
# C78: what a step of the release order means, and what is handed to the writer of the configuration
-/
namespace Rpwa.ResMin
open ResCfg ResFit Spec

/-- `w` is a word of `s`: a maximal non-empty run of characters that are not blank, tab or newline -/
def IsWord (s w : Name) : Prop :=
  w ≠ [] ∧ (∀ c ∈ w, ¬ (c = ' ' ∨ c = '\t' ∨ c = '\n')) ∧
  ∃ pre post, s = pre ++ w ++ post ∧ (∀ c, pre.getLast? = some c → c = ' ' ∨ c = '\t' ∨ c = '\n') ∧
    ∀ c, post.head? = some c → c = ' ' ∨ c = '\t' ∨ c = '\n'

theorem isSep_iff (c : Char) : isSep c = true ↔ c = ' ' ∨ c = '\t' ∨ c = '\n' := by
  unfold isSep; simp [or_assoc]

theorem splitOnP_spec (s : Name) : ∃ x xs, s.splitOnP isSep = x :: xs ∧
    (∀ c ∈ x, isSep c = false) ∧ (∃ post, s = x ++ post ∧ ∀ c, post.head? = some c → isSep c = true) ∧
    ∀ w, w ∈ xs ↔ (∀ c ∈ w, isSep c = false) ∧ ∃ pre post, pre ≠ [] ∧ s = pre ++ w ++ post ∧
      (∀ c, pre.getLast? = some c → isSep c = true) ∧ ∀ c, post.head? = some c → isSep c = true := by
  induction s with
  | nil =>
    refine ⟨[], [], List.splitOnP_nil, by simp, ⟨[], by simp⟩, fun w => ⟨fun h => (by cases h), ?_⟩⟩
    rintro ⟨_, pre, post, hp, h, _⟩
    have := h.symm
    simp at this
    exact absurd this.1 hp
  | cons a s ih =>
    obtain ⟨x, xs, h1, h2, ⟨po, h3, h3'⟩, h4⟩ := ih
    rw [List.splitOnP_cons_eq_if_modifyHead, h1]
    by_cases ha : isSep a = true
    · rw [if_pos ha]
      refine ⟨[], x :: xs, rfl, by simp, ⟨a :: s, rfl, by simpa using ha⟩, fun w => ?_⟩
      rw [List.mem_cons, h4]
      constructor
      · rintro (rfl | ⟨g1, pre, post, _, g2, g3, g4⟩)
        · exact ⟨h2, [a], po, by simp, by rw [h3]; rfl, by simpa using ha, h3'⟩
        · refine ⟨g1, a :: pre, post, by simp, by rw [g2]; rfl, ?_, g4⟩
          intro c hc
          cases pre with
          | nil => simp at hc; rw [← hc]; exact ha
          | cons b pre => rw [List.getLast?_cons_cons] at hc; exact g3 c hc
      · rintro ⟨g1, pre, post, hp, g2, g3, g4⟩
        cases pre with
        | nil => exact absurd rfl hp
        | cons b pre =>
          simp only [List.cons_append, List.cons.injEq] at g2
          cases pre with
          | nil =>
            left
            simp only [List.nil_append] at g2
            have e := g2.2.symm.trans h3
            rcases List.append_eq_append_iff.mp e with ⟨l, e1, e2⟩ | ⟨l, e1, e2⟩
            · cases l with
              | nil => simpa using e1.symm
              | cons d l =>
                have := g4 d (by rw [e2]; rfl)
                rw [h2 d (by rw [e1]; simp)] at this; cases this
            · cases l with
              | nil => simpa using e1
              | cons d l =>
                have := h3' d (by rw [e2]; rfl)
                rw [g1 d (by rw [e1]; simp)] at this; cases this
          | cons d pre =>
            right
            exact ⟨g1, d :: pre, post, by simp, g2.2, fun c hc => g3 c (by rw [List.getLast?_cons_cons]; exact hc), g4⟩
    · rw [if_neg ha]
      have ha' : isSep a = false := by simpa using ha
      refine ⟨a :: x, xs, rfl, ?_, ⟨po, by rw [h3]; rfl, h3'⟩, fun w => ?_⟩
      · intro c hc
        rcases List.mem_cons.mp hc with rfl | hc
        · exact ha'
        · exact h2 c hc
      · rw [h4]
        constructor
        · rintro ⟨g1, pre, post, hp, g2, g3, g4⟩
          refine ⟨g1, a :: pre, post, by simp, by rw [g2]; rfl, fun c hc => ?_, g4⟩
          cases pre with
          | nil => exact absurd rfl hp
          | cons b pre => rw [List.getLast?_cons_cons] at hc; exact g3 c hc
        · rintro ⟨g1, pre, post, hp, g2, g3, g4⟩
          cases pre with
          | nil => exact absurd rfl hp
          | cons b pre =>
            simp only [List.cons_append, List.cons.injEq] at g2
            cases pre with
            | nil =>
              have := g3 b rfl
              rw [← g2.1, ha'] at this; cases this
            | cons d pre =>
              exact ⟨g1, d :: pre, post, by simp, g2.2,
                fun c hc => g3 c (by rw [List.getLast?_cons_cons]; exact hc), g4⟩

/-- **C78.** The words of a step are its maximal runs without blanks, tabs and newlines. -/
theorem words_iff (s w : Name) : w ∈ words s ↔ IsWord s w := by
  obtain ⟨x, xs, h1, h2, ⟨po, h3, h3'⟩, h4⟩ := splitOnP_spec s
  have hn : ∀ c, isSep c = false ↔ ¬ (c = ' ' ∨ c = '\t' ∨ c = '\n') := fun c => by
    rw [← isSep_iff]; simp
  unfold words
  rw [List.mem_filter, h1, List.mem_cons, h4]
  unfold IsWord
  simp only [hn, isSep_iff, decide_eq_true_eq]
  constructor
  · rintro ⟨rfl | ⟨g1, pre, post, _, g2, g3, g4⟩, hw⟩
    · exact ⟨hw, fun c hc => (hn c).mp (h2 c hc), [], po, by simpa using h3, by simp, fun c hc => (isSep_iff c).mp (h3' c hc)⟩
    · exact ⟨hw, g1, pre, post, g2, g3, g4⟩
  · rintro ⟨hw, g1, pre, post, g2, g3, g4⟩
    refine ⟨?_, hw⟩
    by_cases hp : pre = []
    · left
      subst hp
      simp only [List.nil_append] at g2
      have e := g2.symm.trans h3
      rcases List.append_eq_append_iff.mp e with ⟨l, e1, e2⟩ | ⟨l, e1, e2⟩
      · cases l with
        | nil => simpa using e1.symm
        | cons d l =>
          have := g4 d (by rw [e2]; rfl)
          exact absurd this ((hn d).mp (h2 d (by rw [e1]; simp)))
      · cases l with
        | nil => simpa using e1
        | cons d l =>
          have := (isSep_iff d).mp (h3' d (by rw [e2]; rfl))
          exact absurd this (g1 d (by rw [e1]; simp))
    · exact Or.inr ⟨g1, pre, post, hp, g2, g3, g4⟩

/-- **C78.** Without a release order from the user there are three minimizations and the Hessian matrix;
otherwise the order of the user is taken. -/
theorem order_default (free : List Name) :
    (free = [] → orderOf free = ["coupling branching".toList, "coupling branching mass m0".toList, "*".toList,
      "hesse".toList]) ∧ (free ≠ [] → orderOf free = free) := by
  refine ⟨?_, fun h => ?_⟩
  · rintro rfl; rfl
  · unfold orderOf
    rw [if_neg (by simpa using h)]

/-- **C78.** What is written into the configuration after a fit: for every parameter of a component the value
and the error of the last step that was done. -/
theorem stored {S : Setup} {C : Codec} {dat : List BinC → Input} {root : V} {cfg : Config}
    (hcfg : readConfig S C dat root = .ok cfg) {mz : Minimizer} {chi2 : (ℕ → ℝ) → ℝ} {points maxCalls : ℕ}
    {free : List Name} {st : St} {err : Params} {q : List (Name × Num)} {r : Run}
    (h : minimize cfg mz chi2 points maxCalls free st err = .ok (q, r)) :
    ∃ x, r.hist.getLast? = some x ∧ ∀ j id k, (layout cfg.model)[j]? = some (.par id k) →
      r.store.P.par id k = x.2.X j ∧ r.store.E id k = .fin (x.2.errors j) := by
  obtain ⟨_, hd⟩ := done_of hcfg h
  have hs := hd.started
  obtain ⟨x, hx⟩ : ∃ x, r.hist.getLast? = some x := by
    cases hl : r.hist.getLast? with
    | none => rw [List.getLast?_eq_none_iff] at hl; rw [hl] at hs; simp at hs
    | some x => exact ⟨x, rfl⟩
  refine ⟨x, hx, fun j id k hj => ⟨?_, ?_⟩⟩
  · have hv := hd.values
    unfold Current at hv
    rw [hx] at hv
    exact hv j _ hj
  · have he := hd.errors x hx j _ hj
    show Num.fin (r.err.par id k) = _
    rw [← he]; rfl

/-- **C78.** The names of couplings and branchings use the two parts of a wave name before and behind the first `=`. -/
theorem wave_parts (qn decay : Name) (hq : '=' ∉ qn) :
    waveQN (qn ++ '=' :: decay) = qn ∧ waveDecay (qn ++ '=' :: decay) = decay := by
  have hp : ∀ c ∈ qn, (decide (c ≠ '=')) = true := fun c hc => by
    simp only [decide_eq_true_eq]; rintro rfl; exact hq hc
  unfold waveQN waveDecay
  rw [if_pos (by simp), List.takeWhile_append_of_pos hp, List.dropWhile_append_of_pos hp]
  simp

example : IsWord "coupling  mass".toList "mass".toList :=
  ⟨by decide, by decide, "coupling  ".toList, [], rfl, by decide, by decide⟩

end Rpwa.ResMin

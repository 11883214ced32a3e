import Verif.Spec.WaveName
import Verif.Lemmas.FitNames
import Mathlib.Data.List.Infix
/-! # Lemmas about wave names -/
namespace Rpwa.Fit

/-! ### sanitize -/

def san (c : Char) : Char := if (if c = '(' then '_' else c) = ')' then '_' else (if c = '(' then '_' else c)

theorem sanitize_eq (s : Name) : sanitize s = s.map san := by
  simp only [sanitize, List.map_map]
  rfl

theorem sanitize_append (a b : Name) : sanitize (a ++ b) = sanitize a ++ sanitize b := by simp [sanitize_eq]

theorem sanitize_cons (c : Char) (s : Name) (h1 : c ≠ '(') (h2 : c ≠ ')') : sanitize (c :: s) = c :: sanitize s := by
  simp [sanitize_eq, san, h1, h2]

theorem sanitize_nil : sanitize [] = [] := rfl

theorem san_ne (c : Char) : san c ≠ '(' ∧ san c ≠ ')' := by
  unfold san
  by_cases h1 : c = '('
  · subst h1; decide
  · rw [if_neg h1]
    by_cases h2 : c = ')'
    · subst h2; decide
    · rw [if_neg h2]; exact ⟨h1, h2⟩

theorem sanitize_self (s : Name) (h : ∀ c ∈ s, c ≠ '(' ∧ c ≠ ')') : sanitize s = s := by
  rw [sanitize_eq]
  conv_rhs => rw [← List.map_id s]
  apply List.map_congr_left
  intro c hc
  obtain ⟨h1, h2⟩ := h c hc
  simp [san, h1, h2]

theorem sanitize_chars (s : Name) : ∀ c ∈ sanitize s, c ≠ '(' ∧ c ≠ ')' := by
  intro c hc
  rw [sanitize_eq, List.mem_map] at hc
  obtain ⟨d, -, rfl⟩ := hc
  exact san_ne d

theorem sanitize_idem (s : Name) : sanitize (sanitize s) = sanitize s := sanitize_self _ (sanitize_chars s)

theorem mem_sanitize {s : Name} {c : Char} (h : c ∈ sanitize s) : c ∈ s ∨ c = '_' := by
  rw [sanitize_eq, List.mem_map] at h
  obtain ⟨d, hd, rfl⟩ := h
  unfold san
  split_ifs <;> simp_all

theorem not_mem_sanitize {s : Name} {c : Char} (h : c ∉ s) (h' : c ≠ '_') : c ∉ sanitize s := fun hc =>
  (mem_sanitize hc).elim h h'

theorem san_eq_iff (c d : Char) : san c = san d ↔ c = d ∨ (c ∈ ['(', ')', '_'] ∧ d ∈ ['(', ')', '_']) := by
  simp only [List.mem_cons, List.not_mem_nil, or_false]
  have key : ∀ c : Char, (san c = '_' ∧ (c = '(' ∨ c = ')' ∨ c = '_')) ∨ (san c = c ∧ ¬ (c = '(' ∨ c = ')' ∨ c = '_')) := by
    intro c
    by_cases h1 : c = '('
    · subst h1; left; decide
    by_cases h2 : c = ')'
    · subst h2; left; decide
    by_cases h3 : c = '_'
    · subst h3; left; decide
    · right; simp [san, h1, h2, h3]
  rcases key c with ⟨h1, h2⟩ | ⟨h1, h2⟩ <;> rcases key d with ⟨h3, h4⟩ | ⟨h3, h4⟩
  · rw [h1, h3]; exact ⟨fun _ => .inr ⟨h2, h4⟩, fun _ => rfl⟩
  · rw [h1, h3]
    constructor
    · intro h; exact absurd (.inr (.inr h.symm)) h4
    · rintro (h | h)
      · exact absurd (h ▸ h2) h4
      · exact absurd h.2 h4
  · rw [h1, h3]
    constructor
    · intro h; exact absurd (.inr (.inr h)) h2
    · rintro (h | h)
      · exact absurd (h ▸ h4) h2
      · exact absurd h.1 h2
  · rw [h1, h3]
    constructor
    · exact .inl
    · rintro (h | h)
      · exact h
      · exact absurd h.1 h2

theorem sanitize_eq_iff (a b : Name) : sanitize a = sanitize b ↔ SameName a b := by
  rw [sanitize_eq, sanitize_eq]
  unfold SameName
  induction a generalizing b with
  | nil => cases b <;> simp
  | cons c a ih =>
    cases b with
    | nil => simp
    | cons d b => rw [List.map_cons, List.map_cons, List.cons.injEq, List.forall₂_cons, ih, san_eq_iff]

/-! ### numbers -/

theorem repr_isDigit (n : ℕ) : ∀ c ∈ (Nat.repr n).toList, c.isDigit = true := digits_isDigit n

theorem repr_ne_nil (n : ℕ) : (Nat.repr n).toList ≠ [] := by
  intro h
  rw [Nat.toList_repr] at h
  exact absurd h (by simp)

theorem repr_inj {m n : ℕ} (h : (Nat.repr m).toList = (Nat.repr n).toList) : m = n := by
  have h1 := Nat.ofDigitChars_ten_toDigits (n := m)
  have h2 := Nat.ofDigitChars_ten_toDigits (n := n)
  rw [Nat.toList_repr, Nat.toList_repr] at h
  rw [h] at h1
  exact h1.symm.trans h2

theorem spinText_chars (q : ℤ) : ∀ c ∈ spinText q, c.isDigit = true ∨ c = '-' ∨ c = '.' := by
  intro c hc
  simp only [spinText, List.mem_append] at hc
  rcases hc with (hc | hc) | hc
  · split_ifs at hc
    · simp at hc; simp [hc]
    · simp at hc
  · exact .inl (repr_isDigit _ c hc)
  · split_ifs at hc
    · simp at hc
      rcases hc with rfl | rfl
      · simp
      · left; decide
    · simp at hc

theorem not_digit_of {c : Char} {d : Char} (hd : d.isDigit = false) (h : c.isDigit = true) : c ≠ d := by
  rintro rfl; rw [h] at hd; exact absurd hd (by decide)

theorem spinText_no (q : ℤ) (d : Char) (hd : d.isDigit = false) (h1 : d ≠ '-') (h2 : d ≠ '.') : d ∉ spinText q := by
  intro h
  rcases spinText_chars q d h with h | h | h
  · rw [hd] at h; exact absurd h (by decide)
  · exact h1 h
  · exact h2 h

/-- spin texts end with a digit. -/
theorem spinText_last (q : ℤ) : ∃ s c, spinText q = s ++ [c] ∧ c.isDigit = true := by
  unfold spinText
  by_cases h : q.natAbs % 2 = 1
  · rw [if_pos h]
    exact ⟨(if q < 0 then ['-'] else []) ++ (Nat.repr (q.natAbs / 2)).toList ++ ['.'], '5', by simp, by decide⟩
  · rw [if_neg h, List.append_nil]
    have hne := repr_ne_nil (q.natAbs / 2)
    refine ⟨(if q < 0 then ['-'] else []) ++ (Nat.repr (q.natAbs / 2)).toList.dropLast, (Nat.repr (q.natAbs / 2)).toList.getLast hne, ?_,
      repr_isDigit _ _ (List.getLast_mem hne)⟩
    rw [List.append_assoc, List.dropLast_append_getLast hne]

theorem spinText_inj {q r : ℤ} (h : spinText q = spinText r) : q = r := by
  have hneg : ∀ q r : ℤ, spinText q = spinText r → q < 0 → r < 0 := by
    intro q r h hq
    by_contra hr
    have := congrArg List.head? h
    simp only [spinText, if_pos hq, if_neg hr, List.nil_append, List.cons_append, List.head?_cons] at this
    cases hd : (Nat.repr (r.natAbs / 2)).toList with
    | nil => exact repr_ne_nil _ hd
    | cons c l =>
      rw [hd] at this
      simp only [List.cons_append, List.head?_cons, Option.some.injEq] at this
      have hc := repr_isDigit (r.natAbs / 2) c (by rw [hd]; exact List.mem_cons_self)
      rw [← this] at hc
      exact absurd hc (by decide)
  have hs : (q < 0) ↔ (r < 0) := ⟨hneg q r h, hneg r q h.symm⟩
  have hpre : (if q < 0 then ['-'] else [] : Name) = (if r < 0 then ['-'] else []) := if_congr hs rfl rfl
  simp only [spinText, List.append_assoc] at h
  rw [hpre, List.append_cancel_left_eq] at h
  -- digits and fraction
  have hab : q.natAbs / 2 = r.natAbs / 2 ∧ q.natAbs % 2 = r.natAbs % 2 := by
    have key : ∀ (a b : Name) (u v : Name), (∀ c ∈ a, c.isDigit = true) → (∀ c ∈ b, c.isDigit = true) →
        (u = [] ∨ u = ['.', '5']) → (v = [] ∨ v = ['.', '5']) → a ++ u = b ++ v → a = b ∧ u = v := by
      intro a b u v ha hb hu hv e
      have hna : '.' ∉ a := fun h => absurd (ha _ h) (by decide)
      have hnb : '.' ∉ b := fun h => absurd (hb _ h) (by decide)
      rcases hu with rfl | rfl <;> rcases hv with rfl | rfl
      · simpa using e
      · rw [List.append_nil] at e
        exact absurd (e ▸ (by simp : '.' ∈ b ++ ['.', '5'])) hna
      · rw [List.append_nil] at e
        exact absurd (e ▸ (by simp : '.' ∈ a ++ ['.', '5'])) hnb
      · exact ⟨List.append_cancel_right e, rfl⟩
    obtain ⟨h1, h2⟩ := key _ _ _ _ (repr_isDigit _) (repr_isDigit _)
      (by by_cases h : q.natAbs % 2 = 1 <;> simp [h]) (by by_cases h : r.natAbs % 2 = 1 <;> simp [h]) h
    refine ⟨repr_inj h1, ?_⟩
    by_cases hq : q.natAbs % 2 = 1 <;> by_cases hr : r.natAbs % 2 = 1
    · omega
    · simp [hq, hr] at h2
    · simp [hq, hr] at h2
    · omega
  omega

/-- cutting at the first separator. -/
theorem sep_inj {a b u v : Name} (P : Char → Prop) (ha : ∀ c ∈ a, ¬ P c) (hb : ∀ c ∈ b, ¬ P c)
    (hu : ∃ c u', u = c :: u' ∧ P c) (hv : ∃ c v', v = c :: v' ∧ P c) (e : a ++ u = b ++ v) : a = b ∧ u = v := by
  induction a generalizing b with
  | nil =>
    cases b with
    | nil => exact ⟨rfl, e⟩
    | cons d b =>
      obtain ⟨c, u', rfl, hc⟩ := hu
      simp only [List.nil_append, List.cons_append, List.cons.injEq] at e
      exact absurd (e.1 ▸ hc) (hb d List.mem_cons_self)
  | cons d a ih =>
    cases b with
    | nil =>
      obtain ⟨c, v', rfl, hc⟩ := hv
      simp only [List.nil_append, List.cons_append, List.cons.injEq] at e
      exact absurd (e.1 ▸ hc) (ha d List.mem_cons_self)
    | cons d' b =>
      simp only [List.cons_append, List.cons.injEq] at e
      obtain ⟨h1, h2⟩ := ih (fun c hc => ha c (List.mem_cons_of_mem _ hc)) (fun c hc => hb c (List.mem_cons_of_mem _ hc)) e.2
      exact ⟨by rw [e.1, h1], h2⟩

theorem char_sep {a b u v : Name} (c : Char) (ha : c ∉ a) (hb : c ∉ b) (e : a ++ c :: u = b ++ c :: v) : a = b ∧ u = v := by
  obtain ⟨h1, h2⟩ := sep_inj (· = c) (fun d hd h => ha (h ▸ hd)) (fun d hd h => hb (h ▸ hd)) ⟨c, u, rfl, rfl⟩ ⟨c, v, rfl, rfl⟩ e
  exact ⟨h1, (List.cons.inj h2).2⟩

/-! ### quantum numbers -/

theorem parityText_inj {p q : ℤ} (hp : p = 0 ∨ p = 1 ∨ p = -1) (hq : q = 0 ∨ q = 1 ∨ q = -1) (h : parityText p = parityText q) : p = q := by
  rcases hp with rfl | rfl | rfl <;> rcases hq with rfl | rfl | rfl <;> revert h <;> decide

/-- sign characters. -/
theorem parityText_chars (p : ℤ) : ∀ c ∈ parityText p, c = '+' ∨ c = '-' := by
  intro c hc
  unfold parityText at hc
  split_ifs at hc <;> simp_all

theorem parityText_cases (p : ℤ) : parityText p = [] ∨ parityText p = ['+'] ∨ parityText p = ['-'] := by
  unfold parityText; split_ifs <;> simp

theorem parityText_single {p : ℤ} (hp : p = 1 ∨ p = -1) : ∃ c, parityText p = [c] ∧ (c = '+' ∨ c = '-') := by
  rcases hp with rfl | rfl
  · exact ⟨'+', by decide, .inl rfl⟩
  · exact ⟨'-', by decide, .inr rfl⟩

/-- spin followed by signs: the signs start after the last digit. -/
theorem spin_signs {q r : ℤ} {u v : Name} (hu : ∀ c ∈ u, c = '+' ∨ c = '-') (hv : ∀ c ∈ v, c = '+' ∨ c = '-')
    (e : spinText q ++ u = spinText r ++ v) : q = r ∧ u = v := by
  have e' := congrArg List.reverse e
  rw [List.reverse_append, List.reverse_append] at e'
  obtain ⟨s, c, hs, hc⟩ := spinText_last q
  obtain ⟨t, d, ht, hd⟩ := spinText_last r
  have nd : ∀ c : Char, c = '+' ∨ c = '-' → ¬ c.isDigit = true := by
    rintro c (rfl | rfl) <;> decide
  obtain ⟨h1, h2⟩ := sep_inj (fun c => c.isDigit = true) (a := u.reverse) (b := v.reverse)
    (fun c hc => nd c (hu c (by simpa using hc))) (fun c hc => nd c (hv c (by simpa using hc)))
    ⟨c, s.reverse, by rw [hs]; simp, hc⟩ ⟨d, t.reverse, by rw [ht]; simp, hd⟩ e'
  exact ⟨spinText_inj (List.reverse_injective h2), List.reverse_injective h1⟩

/-- `IG`. -/
theorem spinParity_inj {q r p p' : ℤ} (hp : p = 0 ∨ p = 1 ∨ p = -1) (hp' : p' = 0 ∨ p' = 1 ∨ p' = -1)
    (e : spinText q ++ parityText p = spinText r ++ parityText p') : q = r ∧ p = p' := by
  obtain ⟨h1, h2⟩ := spin_signs (parityText_chars p) (parityText_chars p') e
  exact ⟨h1, parityText_inj hp hp' h2⟩

/-- `JPC`. -/
theorem jpc_inj {q r p p' c c' : ℤ} (hp : p = 1 ∨ p = -1) (hp' : p' = 1 ∨ p' = -1) (hc : c = 0 ∨ c = 1 ∨ c = -1) (hc' : c' = 0 ∨ c' = 1 ∨ c' = -1)
    (e : spinText q ++ parityText p ++ parityText c = spinText r ++ parityText p' ++ parityText c') : q = r ∧ p = p' ∧ c = c' := by
  rw [List.append_assoc, List.append_assoc] at e
  obtain ⟨h1, h2⟩ := spin_signs
    (by intro d hd; rcases List.mem_append.1 hd with h | h <;> exact parityText_chars _ _ h)
    (by intro d hd; rcases List.mem_append.1 hd with h | h <;> exact parityText_chars _ _ h) e
  obtain ⟨x, hx, -⟩ := parityText_single hp
  obtain ⟨y, hy, -⟩ := parityText_single hp'
  have hx' := hx
  rw [hx, hy] at h2
  simp only [List.cons_append, List.nil_append, List.cons.injEq] at h2
  refine ⟨h1, parityText_inj (.inr hp) (.inr hp') (by rw [hx, hy, h2.1]), parityText_inj hc hc' h2.2⟩

theorem spinParity_no (q p : ℤ) (d : Char) (hd : d.isDigit = false) (h1 : d ≠ '-') (h2 : d ≠ '.') (h3 : d ≠ '+') : d ∉ spinText q ++ parityText p := by
  intro h
  rcases List.mem_append.1 h with h | h
  · exact spinText_no q d hd h1 h2 h
  · rcases parityText_chars p d h with h | h
    · exact h3 h
    · exact h1 h

theorem jpc_no (q p c : ℤ) (d : Char) (hd : d.isDigit = false) (h1 : d ≠ '-') (h2 : d ≠ '.') (h3 : d ≠ '+') :
    d ∉ spinText q ++ parityText p ++ parityText c := by
  intro h
  rcases List.mem_append.1 h with h | h
  · exact spinParity_no q p d hd h1 h2 h3 h
  · rcases parityText_chars c d h with h | h
    · exact h3 h
    · exact h1 h

theorem qnText_inj_sep {p p' : WaveParticle} (hp : GoodQn p) (hp' : GoodQn p') (h : qnText p = qnText p') : SameQn p p' := by
  unfold qnText at h
  obtain ⟨h1, h2⟩ := char_sep ',' (spinParity_no _ _ _ (by decide) (by decide) (by decide) (by decide))
    (spinParity_no _ _ _ (by decide) (by decide) (by decide) (by decide)) h
  obtain ⟨h3, h4⟩ := spinParity_inj hp.2.1 hp'.2.1 h1
  obtain ⟨h5, h6, h7⟩ := jpc_inj hp.1 hp'.1 hp.2.2 hp'.2.2 h2
  exact ⟨h3, h4, h5, h6, h7⟩

theorem qnText_congr {p p' : WaveParticle} (h : SameQn p p') : qnText p = qnText p' := by
  obtain ⟨h1, h2, h3, h4, h5⟩ := h
  unfold qnText; rw [h1, h2, h3, h4, h5]

theorem qnText_chars (p : WaveParticle) : ∀ c ∈ qnText p, c.isDigit = true ∨ c ∈ ['-', '.', '+', ','] := by
  have hs : ∀ q : ℤ, ∀ c ∈ spinText q, c.isDigit = true ∨ c ∈ ['-', '.', '+', ','] := by
    intro q c hc
    rcases spinText_chars q c hc with h | h | h
    · exact .inl h
    · right; rw [h]; simp
    · right; rw [h]; simp
  have hp : ∀ q : ℤ, ∀ c ∈ parityText q, c.isDigit = true ∨ c ∈ ['-', '.', '+', ','] := by
    intro q c hc
    rcases parityText_chars q c hc with h | h
    · right; rw [h]; simp
    · right; rw [h]; simp
  intro c hc
  simp only [qnText, List.mem_append, List.mem_cons] at hc
  rcases hc with (hc | hc) | hc | (hc | hc) | hc
  · exact hs _ c hc
  · exact hp _ c hc
  · right; rw [hc]; simp
  · exact hs _ c hc
  · exact hp _ c hc
  · exact hp _ c hc

theorem qnText_count (p : WaveParticle) : (qnText p).count ',' = 1 := by
  unfold qnText
  rw [List.count_append, List.count_cons_self,
    List.count_eq_zero_of_not_mem (spinParity_no _ _ _ (by decide) (by decide) (by decide) (by decide)),
    List.count_eq_zero_of_not_mem (jpc_no _ _ _ _ (by decide) (by decide) (by decide) (by decide))]

end Rpwa.Fit

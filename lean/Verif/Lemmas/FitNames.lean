import Verif.Spec.FitResult
import Verif.Lemmas.Outcome
import Mathlib.Data.List.Infix
import Mathlib.Data.List.GetD
/-! Lemmas for fit results: names of waves and production amplitudes. -/
namespace Rpwa.Fit

/-! ### substrings and escaping -/

theorem hasSub_iff (pat s : Name) : hasSub pat s = true ↔ pat <:+: s := by
  unfold hasSub
  rw [List.any_eq_true]
  constructor
  · rintro ⟨t, ht, hp⟩
    exact (List.isPrefixOf_iff_prefix.1 hp).isInfix.trans ((List.mem_tails _ _).1 ht).isInfix
  · rintro ⟨a, b, h⟩
    refine ⟨pat ++ b, (List.mem_tails _ _).2 ⟨a, by simpa using h⟩, List.isPrefixOf_iff_prefix.2 ⟨b, rfl⟩⟩

theorem replaceAll_single (c : Char) (rep s : Name) :
    replaceAll [c] rep s = s.flatMap fun x => if x = c then rep else [x] := by
  induction s with
  | nil => rw [replaceAll]; rfl
  | cons x s ih =>
    rw [replaceAll, List.flatMap_cons]
    by_cases h : x = c
    · subst h
      simp [ih]
    · have : List.isPrefixOf [c] (x :: s) = false := by
        simp [List.isPrefixOf, Ne.symm h]
      rw [this, if_neg h]
      simp [ih]

/-- quoting of the characters in `S`. -/
def quote (S : List Char) (x : Char) : Name := if x ∈ S then ['\\', x] else [x]

theorem no_double (S : List Char) (l : Name) (hl : '\\' ∉ l) : ¬ ['\\', '\\'] <:+: l.flatMap (quote S) := by
  induction l with
  | nil => simp
  | cons x l ih =>
    have hx : x ≠ '\\' := fun h => hl (by rw [h]; exact List.mem_cons_self)
    have hl' : '\\' ∉ l := fun h => hl (List.mem_cons_of_mem _ h)
    rw [List.flatMap_cons]
    unfold quote
    split
    · simp only [List.cons_append, List.nil_append, List.infix_cons_iff, List.prefix_cons_iff]
      rintro (h | h | h)
      · simp at h; exact hx h.symm
      · simp at h; exact hx h.1.symm
      · exact ih hl' h
    · simp only [List.cons_append, List.nil_append, List.infix_cons_iff]
      rintro (h | h)
      · simp at h; exact hx h.1.symm
      · exact ih hl' h

theorem replaceWhile_of_not (pat rep s : Name) (h : ¬ pat <:+: s) : replaceWhile pat rep s = s := by
  rw [replaceWhile, if_neg]
  rw [hasSub_iff]; exact h

theorem escape_step (S : List Char) (c : Char) (hc : c ∉ S) (hcb : c ≠ '\\') (l : Name) (hl : '\\' ∉ l) :
    replaceWhile ['\\', '\\', c] ['\\', c] (replaceAll [c] ['\\', c] (l.flatMap (quote S))) = l.flatMap (quote (c :: S)) := by
  have e : replaceAll [c] ['\\', c] (l.flatMap (quote S)) = l.flatMap (quote (c :: S)) := by
    rw [replaceAll_single, List.flatMap_assoc]
    refine List.flatMap_congr fun x _ => ?_
    unfold quote
    by_cases h : x ∈ S
    · have hxc : x ≠ c := fun e => hc (e ▸ h)
      rw [if_pos h, if_pos (List.mem_cons_of_mem _ h)]
      simp [hxc, Ne.symm hcb]
    · rw [if_neg h]
      by_cases hxc : x = c
      · subst hxc; simp
      · rw [if_neg (by simp [hxc, h])]; simp [hxc]
  rw [e]
  refine replaceWhile_of_not _ _ _ fun h => no_double (c :: S) l hl (List.IsInfix.trans ?_ h)
  exact ⟨[], [c], by simp⟩

theorem escape_aux (cs : List Char) : ∀ S : List Char, (∀ c ∈ cs, c ∉ S ∧ c ≠ '\\') → cs.Nodup → ∀ l : Name, '\\' ∉ l →
    cs.foldl (fun s c => replaceWhile ['\\', '\\', c] ['\\', c] (replaceAll [c] ['\\', c] s)) (l.flatMap (quote S)) =
      l.flatMap (quote (cs.reverse ++ S)) := by
  induction cs with
  | nil => intro S _ _ l _; rfl
  | cons c cs ih =>
    intro S hS hn l hl
    rw [List.foldl_cons, escape_step S c (hS c List.mem_cons_self).1 (hS c List.mem_cons_self).2 l hl]
    rw [ih (c :: S) ?_ (List.nodup_cons.1 hn).2 l hl]
    · simp
    · intro d hd
      refine ⟨?_, (hS d (List.mem_cons_of_mem _ hd)).2⟩
      intro h
      rcases List.mem_cons.1 h with h | h
      · exact (List.nodup_cons.1 hn).1 (h ▸ hd)
      · exact (hS d (List.mem_cons_of_mem _ hd)).1 h

/-- what `escape` does to names without backslash. -/
theorem escape_eq (l : Name) (hl : '\\' ∉ l) :
    escape l = l.flatMap fun c => if c ∈ ['^', '$', '.', '[', ']', '*', '+', '?'] then ['\\', c] else [c] := by
  have h0 : l = l.flatMap (quote []) := by
    rw [show l.flatMap (quote []) = l.flatMap fun x => [x] from List.flatMap_congr fun x _ => by simp [quote]]
    simp
  unfold escape
  conv_lhs => rw [h0]
  rw [escape_aux specialChars [] (by unfold specialChars; decide) (by unfold specialChars; decide) l hl]
  refine List.flatMap_congr fun x _ => ?_
  unfold quote
  have : x ∈ specialChars.reverse ++ [] ↔ x ∈ ['^', '$', '.', '[', ']', '*', '+', '?'] := by
    unfold specialChars; simp only [List.append_nil, List.mem_reverse]
  by_cases h : x ∈ specialChars.reverse ++ []
  · rw [if_pos h, if_pos (this.1 h)]
  · rw [if_neg h, if_neg (fun e => h (this.2 e))]

/-! ### ranks -/

theorem leadingDigits_append (l : Name) (hl : ∀ c ∈ l, c.isDigit = true) (rest : Name)
    (hr : ∀ c ∈ rest.head?, c.isDigit = false) (acc : ℕ) : leadingDigits (l ++ rest) acc = Nat.ofDigitChars 10 l acc := by
  induction l generalizing acc with
  | nil =>
    rw [Nat.ofDigitChars_nil, List.nil_append]
    cases rest with
    | nil => rfl
    | cons c t =>
      have := hr c (by simp)
      simp [leadingDigits, this]
  | cons c l ih =>
    rw [List.cons_append, leadingDigits, if_pos (hl c List.mem_cons_self), Nat.ofDigitChars_cons, ih fun d hd => hl d (List.mem_cons_of_mem _ hd)]

theorem digits_isDigit (k : ℕ) : ∀ c ∈ (Nat.repr k).toList, c.isDigit = true := by
  intro c hc
  rw [Nat.toList_repr] at hc
  exact Nat.isDigit_of_mem_toDigits (by norm_num) (by norm_num) hc

theorem isDigit_bounds {c : Char} (h : c.isDigit = true) : 48 ≤ c.toNat ∧ c.toNat ≤ 57 := by
  unfold Char.isDigit at h
  simp only [ge_iff_le, Bool.and_eq_true, decide_eq_true_eq] at h
  exact ⟨by have := h.1; exact this, by have := h.2; exact this⟩

theorem not_ws_of_digit {c : Char} (h : c.isDigit = true) : c.isWhitespace = false := by
  have hb := isDigit_bounds h
  unfold Char.isWhitespace
  simp only [Bool.or_eq_false_iff, decide_eq_false_iff_not]
  refine ⟨⟨⟨?_, ?_⟩, ?_⟩, ?_⟩ <;> (rintro rfl; revert hb; decide)

theorem atoi_repr (k : ℕ) (rest : Name) : atoi ((Nat.repr k).toList ++ '_' :: rest) = k := by
  have hd := digits_isDigit k
  have hne : (Nat.repr k).toList ≠ [] := by rw [Nat.toList_repr]; exact Nat.toDigits_ne_nil
  have hval : leadingDigits ((Nat.repr k).toList ++ '_' :: rest) 0 = k := by
    rw [leadingDigits_append _ hd _ (by intro c hc; simp at hc; subst hc; decide), Nat.toList_repr, Nat.ofDigitChars_ten_toDigits]
  unfold atoi
  obtain ⟨c, t, hct⟩ := List.exists_cons_of_ne_nil hne
  rw [hct] at hd hval ⊢
  have hc := hd c List.mem_cons_self
  have hdw : List.dropWhile Char.isWhitespace (c :: t ++ '_' :: rest) = c :: t ++ '_' :: rest := by
    rw [List.cons_append, List.dropWhile_cons_of_neg]
    rw [not_ws_of_digit hc]; simp
  rw [hdw]
  have h1 : c ≠ '-' := by rintro rfl; exact absurd hc (by decide)
  have h2 : c ≠ '+' := by rintro rfl; exact absurd hc (by decide)
  rw [List.cons_append] at hval ⊢
  split
  · rename_i heq; exact absurd (List.cons.inj heq).1 h1
  · rename_i heq; exact absurd (List.cons.inj heq).1 h2
  · rw [hval]

/-- the rank number of a production amplitude as the code counts it: -1 for the flat wave. -/
def Label.code (l : Label) : ℤ := match l.wave with
  | .flat => -1
  | .pw _ => l.rank

theorem text_ne_flat (k : ℕ) (w : WaveId) : 'V' :: ((Nat.repr k).toList ++ '_' :: w.text) ≠ "V_flat".toList := by
  intro h
  have hne : (Nat.repr k).toList ≠ [] := by rw [Nat.toList_repr]; exact Nat.toDigits_ne_nil
  obtain ⟨c, t, hct⟩ := List.exists_cons_of_ne_nil hne
  have hd := digits_isDigit k c (by rw [hct]; exact List.mem_cons_self)
  rw [hct] at h
  rw [show "V_flat".toList = ['V', '_', 'f', 'l', 'a', 't'] from rfl] at h
  simp only [List.cons_append, List.cons.injEq] at h
  rw [h.2.1] at hd
  exact absurd hd (by decide)

theorem rankOfName_text (l : Label) : rankOfName l.text = l.code := by
  unfold rankOfName Label.text Label.code
  split
  · rename_i h; rw [if_pos rfl, h]
  · rename_i w h
    rw [if_neg (text_ne_flat _ w), List.drop_one, List.tail_cons, atoi_repr, h]

/-! ### wave names -/

theorem waveNameOf_text (l : Label) : waveNameOf l.text = l.wave.text := by
  unfold Label.text
  split
  · rename_i h; rw [h]; decide
  · rename_i w h
    rw [h]
    unfold waveNameOf
    rw [if_neg]
    · rw [List.dropWhile_cons_of_pos (by decide), List.dropWhile_append_of_pos, List.dropWhile_cons_of_neg (by decide)]
      · simp [Wave.text]
      · intro c hc
        have := digits_isDigit l.rank c hc
        simp only [ne_eq, decide_not, Bool.not_eq_eq_eq_not, Bool.not_true, decide_eq_false_iff_not]
        rintro rfl
        exact absurd this (by decide)
    · simp

theorem text_infix (l : Label) : l.wave.text <:+: l.text := by
  unfold Label.text
  split
  · rename_i h; rw [h]; exact ⟨['V', '_'], [], by decide⟩
  · rename_i w h
    rw [h]
    exact ⟨'V' :: ((Nat.repr l.rank).toList ++ ['_']), [], by simp [Wave.text]⟩

theorem idxOf_append_sep (a b : Name) (c : Char) (h : c ∉ a) : (a ++ c :: b).idxOf c = a.length := by
  rw [List.idxOf_append, if_neg h]; simp

theorem reflectivity_text (w : WaveId) (hg : w.Good) : getReflectivity w.text = .ok (if w.pos then 1 else -1) := by
  obtain ⟨h1, h2, h3, h4, _⟩ := hg
  have n1 : ',' ∉ w.ig := fun h => (h1 _ h).1 rfl
  have n1' : ']' ∉ w.ig := fun h => (h1 _ h).2 rfl
  have n2 : ',' ∉ w.jpc := fun h => (h2 _ h).1 rfl
  have n2' : ']' ∉ w.jpc := fun h => (h2 _ h).2 rfl
  have n3' : ']' ∉ w.m := fun h => (h3 _ h).2 rfl
  set e : Char := if w.pos then '+' else '-' with he
  have hee : e ≠ ']' := by rw [he]; cases w.pos <;> decide
  set q : Name := w.ig ++ ',' :: (w.jpc ++ ',' :: (w.m ++ e :: ']' :: w.body)) with hq
  have ht : w.text = '[' :: q := rfl
  have hm : 1 ≤ w.m.length := by
    cases hh : w.m with
    | nil => exact absurd hh h4
    | cons a b => simp
  have first : q.idxOf ',' = w.ig.length := idxOf_append_sep _ _ _ n1
  have second : (q.drop (w.ig.length + 1)).idxOf ',' = w.jpc.length := by
    have : q.drop (w.ig.length + 1) = w.jpc ++ ',' :: (w.m ++ e :: ']' :: w.body) := by
      rw [hq, List.drop_append]; simp
    rw [this]
    exact idxOf_append_sep _ _ _ n2
  have endq : q.idxOf ']' = w.ig.length + 1 + w.jpc.length + 1 + w.m.length + 1 := by
    have : q = (w.ig ++ ',' :: (w.jpc ++ ',' :: (w.m ++ [e]))) ++ ']' :: w.body := by simp [hq]
    rw [this, idxOf_append_sep]
    · simp; ring
    · simp only [List.mem_append, List.mem_cons, not_or]
      refine ⟨n1', by decide, n2', by decide, n3', Ne.symm hee, by simp⟩
  have len : w.ig.length + 1 + w.jpc.length + 1 + w.m.length + 1 < q.length := by
    rw [hq]; simp; omega
  have last : q[w.ig.length + 1 + w.jpc.length + 1 + w.m.length]? = some e := by
    have : q = (w.ig ++ ',' :: (w.jpc ++ ',' :: w.m)) ++ e :: ']' :: w.body := by simp [hq]
    rw [this, List.getElem?_append_right (by simp; omega)]
    rw [show w.ig.length + 1 + w.jpc.length + 1 + w.m.length - (w.ig ++ ',' :: (w.jpc ++ ',' :: w.m)).length = 0 by simp; omega]
    rfl
  rw [ht]
  unfold getReflectivity
  rw [if_neg (by simp)]
  simp only [List.head?_cons, Option.some.injEq, Char.reduceEq, if_false]
  rw [if_neg (by intro h; exact absurd (List.cons.inj h).1 (by decide))]
  simp only [first, second, endq]
  rw [if_neg (by omega), if_neg (by omega), if_neg (by omega),
    show w.ig.length + 1 + w.jpc.length + 1 + w.m.length + 1 - 1 = w.ig.length + 1 + w.jpc.length + 1 + w.m.length by omega, last]
  rw [he]
  cases w.pos
  · rfl
  · rfl

theorem reflectivity_wave (w : Wave) (hg : ∀ i, w = .pw i → i.Good) : getReflectivity w.text = .ok w.refl := by
  cases w with
  | flat => rfl
  | pw i => exact reflectivity_text i (hg i rfl)

theorem waveId_text_inj {w w' : WaveId} (h : w.Good) (h' : w'.Good) (e : w.text = w'.text) : w = w' := by
  obtain ⟨h1, h2, h3, _⟩ := h
  obtain ⟨g1, g2, g3, _⟩ := h'
  have split : ∀ (c : Char) (a b a' b' : Name), c ∉ a → c ∉ a' → a ++ c :: b = a' ++ c :: b' → a = a' ∧ b = b' := by
    intro c a b a' b' ha ha' hh
    have hl : a.length = a'.length := by
      rw [← idxOf_append_sep a b c ha, hh, idxOf_append_sep a' b' c ha']
    have := List.append_inj hh hl
    exact ⟨this.1, (List.cons.inj this.2).2⟩
  have e0 := (List.cons.inj e).2
  obtain ⟨e1, e0⟩ := split ',' _ _ _ _ (fun h => (h1 _ h).1 rfl) (fun h => (g1 _ h).1 rfl) e0
  obtain ⟨e2, e0⟩ := split ',' _ _ _ _ (fun h => (h2 _ h).1 rfl) (fun h => (g2 _ h).1 rfl) e0
  have ha : ∀ w : WaveId, (w.m ++ (if w.pos then '+' else '-') :: ']' :: w.body) = (w.m ++ [if w.pos then '+' else '-']) ++ ']' :: w.body := by
    intro w; simp
  rw [ha, ha] at e0
  have hn : ∀ w : WaveId, (∀ c ∈ w.m, c ≠ ',' ∧ c ≠ ']') → ']' ∉ w.m ++ [if w.pos then '+' else '-'] := by
    intro w hw hh
    rcases List.mem_append.1 hh with hh | hh
    · exact (hw _ hh).2 rfl
    · cases hp : w.pos <;> simp [hp] at hh
  obtain ⟨e3, e4⟩ := split ']' _ _ _ _ (hn w h3) (hn w' g3) e0
  obtain ⟨e5, e6⟩ := List.append_inj' e3 rfl
  have e7 : w.pos = w'.pos := by
    cases hp : w.pos <;> cases hp' : w'.pos <;> simp [hp, hp'] at e6 <;> rfl
  cases w; cases w'
  simp_all

theorem wave_text_inj {w w' : Wave} (h : ∀ i, w = .pw i → i.Good) (h' : ∀ i, w' = .pw i → i.Good) (e : w.text = w'.text) : w = w' := by
  cases w with
  | flat =>
    cases w' with
    | flat => rfl
    | pw i => exact absurd (List.cons.inj (show 'f' :: _ = '[' :: _ from e)).1 (by decide)
  | pw i =>
    cases w' with
    | flat => exact absurd (List.cons.inj (show '[' :: _ = 'f' :: _ from e)).1 (by decide)
    | pw j => rw [waveId_text_inj (h i rfl) (h' j rfl) e]

end Rpwa.Fit

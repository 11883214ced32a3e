import Verif.Props.FitSelect
import Mathlib.Data.List.TakeWhile
import Mathlib.Data.List.DropRight
/-! # C91: reading wave lists -/
namespace Rpwa.Select

open Rpwa.Fit

theorem isBlank_iff (c : Char) : isBlank c = true ↔ c ∈ [' ', '\t', '\n', '\r', '\x0b', '\x0c'] := by
  unfold isBlank; simp [or_assoc]

theorem dropBlanks (pre s : Name) (hp : Blanks pre) : (pre ++ s).dropWhile isBlank = s.dropWhile isBlank := by
  induction pre with
  | nil => rfl
  | cons c pre ih =>
    rw [List.cons_append, List.dropWhile_cons_of_pos ((isBlank_iff c).2 (hp c List.mem_cons_self))]
    exact ih fun x hx => hp x (List.mem_cons_of_mem _ hx)

theorem dropTrimmed {s : Name} (h : ∃ c, s.head? = some c ∧ c ∉ [' ', '\t', '\n', '\r', '\x0b', '\x0c']) (t : Name) :
    (s ++ t).dropWhile isBlank = s ++ t := by
  obtain ⟨c, h1, h2⟩ := h
  cases s with
  | nil => simp at h1
  | cons x s =>
    rw [List.head?_cons, Option.some.injEq] at h1
    subst h1
    rw [List.cons_append, List.dropWhile_cons_of_neg fun h => h2 ((isBlank_iff _).1 h)]

/-- blanks at both ends are removed. -/
theorem strip_eq (pre body post : Name) (h1 : Blanks pre) (h2 : Blanks post) (hb : Trimmed body) : strip (pre ++ body ++ post) = body := by
  unfold strip
  rw [List.append_assoc, dropBlanks pre _ h1, dropTrimmed hb.first, List.reverse_append,
    dropBlanks _ _ fun c hc => h2 c (List.mem_reverse.1 hc)]
  have h3 : body.reverse.dropWhile isBlank = body.reverse := by
    have := dropTrimmed (s := body.reverse) (by rw [List.head?_reverse]; exact hb.last) []
    rwa [List.append_nil] at this
  rw [h3, List.reverse_reverse]

theorem split_front (s : Name) : ∃ pre rest, s = pre ++ rest ∧ Blanks pre ∧ s.dropWhile isBlank = rest ∧
    (rest = [] ∨ ∃ c, rest.head? = some c ∧ c ∉ [' ', '\t', '\n', '\r', '\x0b', '\x0c']) := by
  refine ⟨s.takeWhile isBlank, s.dropWhile isBlank, List.takeWhile_append_dropWhile.symm, fun c hc => ?_, rfl, ?_⟩
  · exact (isBlank_iff c).1 (List.mem_takeWhile_imp hc)
  · cases h : s.dropWhile isBlank with
    | nil => exact .inl rfl
    | cons c l =>
      refine .inr ⟨c, rfl, fun h2 => ?_⟩
      have h3 : (s.dropWhile isBlank).dropWhile isBlank = s.dropWhile isBlank := List.dropWhile_idempotent _ _
      rw [h, List.dropWhile_cons_of_pos ((isBlank_iff c).2 h2)] at h3
      have := congrArg List.length h3
      have h4 := (List.dropWhile_sublist (l := l) isBlank).length_le
      simp at this
      omega

/-- every line is blank, or text with blanks at its ends. -/
theorem strip_cases (s : Name) : (strip s = [] ∧ Blanks s) ∨
    ∃ pre body post, s = pre ++ body ++ post ∧ Blanks pre ∧ Blanks post ∧ Trimmed body ∧ strip s = body := by
  obtain ⟨pre, rest, h1, h2, h3, h4⟩ := split_front s
  rcases h4 with h4 | h4
  · left
    refine ⟨?_, ?_⟩
    · unfold strip; rw [h3, h4]; rfl
    · rw [h1, h4, List.append_nil]; exact h2
  · obtain ⟨post, body, h5, h6, h7, h8⟩ := split_front rest.reverse
    have hrest : rest = body.reverse ++ post.reverse := by
      rw [← List.reverse_append, ← h5, List.reverse_reverse]
    have hp : Blanks post.reverse := fun c hc => h6 c (List.mem_reverse.1 hc)
    rcases h8 with h8 | h8
    · -- all of `rest` would be blank
      exfalso
      rw [h8, List.reverse_nil, List.nil_append] at hrest
      obtain ⟨c, h9, h10⟩ := h4
      rw [hrest] at h9
      exact h10 (hp c (List.mem_of_mem_head? h9))
    · right
      have hne : body ≠ [] := by
        rintro rfl
        obtain ⟨c, h9, -⟩ := h8
        simp at h9
      have ht : Trimmed body.reverse := by
        constructor
        · obtain ⟨c, h9, h10⟩ := h4
          refine ⟨c, ?_, h10⟩
          rw [hrest, List.head?_append_of_ne_nil _ (by simpa using hne)] at h9
          exact h9
        · obtain ⟨c, h9, h10⟩ := h8
          exact ⟨c, by rw [List.getLast?_reverse]; exact h9, h10⟩
      have heq : s = pre ++ body.reverse ++ post.reverse := by rw [h1, hrest, List.append_assoc]
      exact ⟨pre, body.reverse, post.reverse, heq, h2, hp, ht, by rw [heq]; exact strip_eq _ _ _ h2 hp ht⟩

theorem length_splitOn (s : Name) : (s.splitOn ' ').length = s.count ' ' + 1 := by
  induction s with
  | nil => rfl
  | cons c s ih =>
    rw [List.splitOn_cons_eq_if_modifyHead, List.count_cons]
    by_cases h : (c == ' ') = true
    · rw [if_pos h, if_pos h, List.length_cons, ih]
    · rw [if_neg h, if_neg h, List.length_modifyHead, ih]

/-- the words of a line. -/
theorem split_cases (s : Name) : (' ' ∉ s ∧ s.splitOn ' ' = [s]) ∨
    (∃ w t, s = w ++ ' ' :: t ∧ ' ' ∉ w ∧ ' ' ∉ t ∧ s.splitOn ' ' = [w, t]) ∨ (2 ≤ s.count ' ' ∧ 3 ≤ (s.splitOn ' ').length) := by
  have hl := length_splitOn s
  by_cases h0 : ' ' ∈ s
  · obtain ⟨w, t, rfl, hw⟩ : ∃ w t, s = w ++ ' ' :: t ∧ ' ' ∉ w := by
      have := List.eq_append_cons_of_mem h0
      exact this
    rw [List.count_append, List.count_cons_self, List.count_eq_zero.2 hw] at hl
    by_cases ht : ' ' ∈ t
    · refine .inr (.inr ⟨?_, ?_⟩)
      · rw [List.count_append, List.count_cons_self]
        have := List.count_pos_iff.2 ht
        omega
      · have := List.count_pos_iff.2 ht
        omega
    · refine .inr (.inl ⟨w, t, rfl, hw, ht, ?_⟩)
      rw [List.splitOn_append_cons_self_of_not_mem hw, List.splitOn_eq_singleton ht]
  · exact .inl ⟨h0, List.splitOn_eq_singleton h0⟩

variable (float : Name → Option ℝ) (desc : Name → Option ℤ)

/-- `waveLine` in terms of the text of the line. -/
theorem waveLine_body {line body : Name} (hs : strip line = body) (hb : Trimmed body) (acc r : List (String × ℤ × ℝ)) :
    waveLine float desc acc line = .ok r ↔ ∃ ws, Means float desc body ws ∧ r = acc ++ ws := by
  obtain ⟨c, h1, -⟩ := hb.first
  cases body with
  | nil => simp at h1
  | cons x cs =>
    unfold waveLine
    rw [hs]
    dsimp only
    by_cases hx : x = '#'
    · subst hx
      rw [if_pos rfl]
      constructor
      · intro h; cases h; exact ⟨[], .comment cs, by simp⟩
      · rintro ⟨ws, h2, rfl⟩
        generalize hbody : '#' :: cs = b at h2
        cases h2 with
        | comment => simp
        | wave _ _ h3 => rw [← hbody] at h3; simp at h3
        | threshold w t _ _ h3 h4 =>
          cases w with
          | nil => simp at hbody
          | cons y w => simp at hbody; simp at h3; exact absurd hbody.1.symm h3
        | ignored _ h3 => rw [← hbody] at h3; simp at h3
    · rw [if_neg hx]
      have hhead : (x :: cs).head? ≠ some '#' := by simpa using hx
      rcases split_cases (x :: cs) with ⟨h2, h3⟩ | ⟨w, t, h2, h3, h4, h5⟩ | ⟨h2, h3⟩
      · rw [h3]
        dsimp only
        cases hd : desc (x :: cs) with
        | none =>
          dsimp only
          constructor
          · intro h; cases h
          · rintro ⟨ws, h4, -⟩
            generalize hbody : x :: cs = b at h4 h2 hd
            cases h4 with
            | comment => simp at hbody; exact absurd hbody.1 hx
            | wave _ _ _ _ h5 => rw [hd] at h5; cases h5
            | threshold => simp at h2
            | ignored _ _ h5 => rw [List.count_eq_zero.2 h2] at h5; omega
        | some refl =>
          dsimp only
          constructor
          · intro h; cases h
            exact ⟨_, .wave _ refl hhead h2 hd, rfl⟩
          · rintro ⟨ws, h4, rfl⟩
            generalize hbody : x :: cs = b at h4 h2 hd
            cases h4 with
            | comment => simp at hbody; exact absurd hbody.1 hx
            | wave _ _ _ _ h5 => rw [hd] at h5; cases h5; rfl
            | threshold => simp at h2
            | ignored _ _ h5 => rw [List.count_eq_zero.2 h2] at h5; omega
      · rw [h5]
        dsimp only
        have hwh : w.head? ≠ some '#' := by
          intro h
          apply hhead
          rw [h2]
          cases w with
          | nil => simp at h
          | cons y w => simpa using h
        have inv : ∀ ws, Means float desc (x :: cs) ws → ∃ refl thr, desc w = some refl ∧ float t = some thr ∧
            ws = [(String.ofList w, refl, thr)] := by
          intro ws h6
          have hc : (x :: cs).count ' ' = 1 := by
            rw [h2, List.count_append, List.count_cons_self, List.count_eq_zero.2 h3, List.count_eq_zero.2 h4]
          generalize hbody : x :: cs = b at h6 h5 hc
          cases h6 with
          | comment => simp at hbody; exact absurd hbody.1 hx
          | wave _ _ _ h7 => rw [List.count_eq_zero.2 h7] at hc; omega
          | threshold w' t' refl thr _ h7 h8 h9 h10 =>
            rw [List.splitOn_append_cons_self_of_not_mem h7, List.splitOn_eq_singleton h8] at h5
            simp only [List.cons.injEq, and_true] at h5
            obtain ⟨rfl, rfl⟩ := h5
            exact ⟨refl, thr, h9, h10, rfl⟩
          | ignored _ _ h7 => omega
        cases hd : desc w with
        | none =>
          dsimp only
          constructor
          · intro h; cases h
          · rintro ⟨ws, h6, -⟩
            obtain ⟨_, _, h7, -⟩ := inv ws h6
            rw [hd] at h7; cases h7
        | some refl =>
          dsimp only
          cases hf : float t with
          | none =>
            dsimp only
            constructor
            · intro h; cases h
            · rintro ⟨ws, h6, -⟩
              obtain ⟨_, _, -, h7, -⟩ := inv ws h6
              rw [hf] at h7; cases h7
          | some thr =>
            dsimp only
            constructor
            · intro h; cases h
              exact ⟨_, h2 ▸ .threshold w t refl thr hwh h3 h4 hd hf, rfl⟩
            · rintro ⟨ws, h6, rfl⟩
              obtain ⟨_, _, h7, h8, rfl⟩ := inv ws h6
              rw [hd] at h7; rw [hf] at h8; cases h7; cases h8; rfl
      · have hm : (match (x :: cs).splitOn ' ' with
            | [w] => match desc w with
              | none => .terminate
              | some refl => .ok (acc ++ [(String.ofList w, refl, 0)])
            | [w, t] => match desc w with
              | none => .terminate
              | some refl => match float t with
                | none => .terminate
                | some thr => .ok (acc ++ [(String.ofList w, refl, thr)])
            | _ => .ok acc : Outcome (List (String × ℤ × ℝ))) = .ok acc := by
          generalize (x :: cs).splitOn ' ' = l at h3
          match l, h3 with
          | _ :: _ :: _ :: _, _ => rfl
        refine Iff.trans (b := acc = r) ?_ ?_
        · refine Iff.trans (b := Outcome.ok acc = Outcome.ok r) ?_ (by simp)
          exact iff_of_eq (congrArg (· = Outcome.ok r) hm)
        · constructor
          · rintro rfl; exact ⟨[], .ignored _ hhead h2, by simp⟩
          · rintro ⟨ws, h6, rfl⟩
            generalize hbody : x :: cs = b at h6 h2
            cases h6 with
            | comment => simp
            | wave _ _ _ h7 => rw [List.count_eq_zero.2 h7] at h2; omega
            | threshold w t _ _ _ h7 h8 =>
              rw [List.count_append, List.count_cons_self, List.count_eq_zero.2 h7, List.count_eq_zero.2 h8] at h2; omega
            | ignored => simp

theorem trimmed_unique {line pre body post : Name} (h : line = pre ++ body ++ post) (h1 : Blanks pre) (h2 : Blanks post) (hb : Trimmed body) :
    strip line = body := h ▸ strip_eq pre body post h1 h2 hb

theorem waveLine_iff (acc r : List (String × ℤ × ℝ)) (line : Name) :
    waveLine float desc acc line = .ok r ↔ ∃ ws, LineMeans float desc line ws ∧ r = acc ++ ws := by
  rcases strip_cases line with ⟨h1, h2⟩ | ⟨pre, body, post, h1, h2, h3, h4, h5⟩
  · constructor
    · intro h; unfold waveLine at h; rw [h1] at h; cases h
    · rintro ⟨ws, ⟨pre, body, post, h3, h4, h5, h6, -⟩, -⟩
      rw [trimmed_unique h3 h4 h5 h6] at h1
      obtain ⟨c, h7, -⟩ := h6.first
      rw [h1] at h7; simp at h7
  · rw [waveLine_body float desc h5 h4]
    constructor
    · rintro ⟨ws, h6, h7⟩
      exact ⟨ws, ⟨pre, body, post, h1, h2, h3, h4, h6⟩, h7⟩
    · rintro ⟨ws, ⟨pre', body', post', h6, h7, h8, h9, h10⟩, h11⟩
      have : body' = body := (trimmed_unique h6 h7 h8 h9).symm.trans h5
      exact ⟨ws, this ▸ h10, h11⟩

theorem loop_iff : ∀ (lines : List Name) (acc r : List (String × ℤ × ℝ)),
    lines.foldlM (waveLine float desc) acc = .ok r ↔ ∃ wss, List.Forall₂ (LineMeans float desc) lines wss ∧ r = acc ++ wss.flatten
  | [], acc, r => by
    constructor
    · intro h; cases h; exact ⟨[], .nil, by simp⟩
    · rintro ⟨wss, h, rfl⟩; cases h; simp
  | l :: lines, acc, r => by
    rw [List.foldlM_cons]
    constructor
    · intro h
      cases h1 : waveLine float desc acc l with
      | ok a =>
        rw [h1] at h
        obtain ⟨ws, h2, rfl⟩ := (waveLine_iff float desc acc a l).1 h1
        obtain ⟨wss, h3, rfl⟩ := (loop_iff lines _ r).1 h
        exact ⟨ws :: wss, .cons h2 h3, by simp⟩
      | terminate => rw [h1] at h; cases h
      | ub => rw [h1] at h; cases h
    · rintro ⟨wss, h, rfl⟩
      cases h with
      | cons h2 h3 =>
        rename_i ws wss
        rw [(waveLine_iff float desc acc _ l).2 ⟨ws, h2, rfl⟩]
        exact (loop_iff lines _ _).2 ⟨wss, h3, by simp⟩

theorem splitOn_fileOf : ∀ (lines : List Name) (last : Name), (∀ l ∈ lines, '\n' ∉ l) → '\n' ∉ last →
    (fileOf lines ++ last).splitOn '\n' = lines ++ [last]
  | [], last, _, h => by unfold fileOf; simp [List.splitOn_eq_singleton h]
  | l :: lines, last, h1, h2 => by
    have h3 : fileOf (l :: lines) ++ last = l ++ '\n' :: (fileOf lines ++ last) := by unfold fileOf; simp
    rw [h3, List.splitOn_append_cons_self_of_not_mem (h1 l List.mem_cons_self),
      splitOn_fileOf lines last (fun x hx => h1 x (List.mem_cons_of_mem _ hx)) h2]
    rfl

theorem fileLines_fileOf (lines : List Name) (h : ∀ l ∈ lines, '\n' ∉ l) : fileLines (fileOf lines) = lines := by
  have h1 := splitOn_fileOf lines [] h (by simp)
  rw [List.append_nil] at h1
  unfold fileLines
  rw [h1]
  simp

theorem fileLines_fileOf_last (lines : List Name) (last : Name) (h : ∀ l ∈ lines, '\n' ∉ l) (h2 : '\n' ∉ last) (h3 : last ≠ []) :
    fileLines (fileOf lines ++ last) = lines ++ [last] := by
  unfold fileLines
  rw [splitOn_fileOf lines last h h2]
  simp [h3]

/-- **C91.** What is read from a wave list: the waves of its lines, in this order, and nothing else. -/
theorem wave_list_iff (lines : List Name) (h : ∀ l ∈ lines, '\n' ∉ l) (r : List (String × ℤ × ℝ)) :
    getWaveDescThresFromWaveList float desc (fileOf lines) = .ok r ↔
      ∃ wss, List.Forall₂ (LineMeans float desc) lines wss ∧ r = wss.flatten := by
  unfold getWaveDescThresFromWaveList
  rw [fileLines_fileOf lines h, loop_iff]
  simp

/-- **C91.** The line end of the last line can be missing. -/
theorem wave_list_last_line (lines : List Name) (last : Name) (h : ∀ l ∈ lines, '\n' ∉ l) (h2 : '\n' ∉ last) (h3 : last ≠ []) :
    getWaveDescThresFromWaveList float desc (fileOf lines ++ last) = getWaveDescThresFromWaveList float desc (fileOf (lines ++ [last])) := by
  unfold getWaveDescThresFromWaveList
  rw [fileLines_fileOf_last lines last h h2 h3, fileLines_fileOf]
  intro l hl
  rcases List.mem_append.1 hl with hl | hl
  · exact h l hl
  · rw [List.mem_singleton.1 hl]; exact h2

/-- **C91.** A blank line anywhere makes the reading fail. -/
theorem blank_line_fails (lines : List Name) (h : ∀ l ∈ lines, '\n' ∉ l) (b : Name) (hb : b ∈ lines) (hbl : Blanks b)
    (r : List (String × ℤ × ℝ)) : getWaveDescThresFromWaveList float desc (fileOf lines) ≠ .ok r := by
  rw [ne_eq, wave_list_iff float desc lines h]
  rintro ⟨wss, h1, -⟩
  obtain ⟨i, hi⟩ := List.mem_iff_getElem?.1 hb
  have hlen := h1.length_eq
  obtain ⟨hi', hib⟩ := List.getElem?_eq_some_iff.1 hi
  have h2 := (List.forall₂_iff_get.1 h1).2 i hi' (hlen ▸ hi')
  obtain ⟨pre, body, post, h3, -, -, h4, -⟩ := h2
  obtain ⟨c, h5, h6⟩ := h4.first
  refine h6 (hbl c ?_)
  rw [← hib]
  change lines[i] = _ at h3
  rw [h3]
  simp [List.mem_of_mem_head? h5]

/-- **C91.** More than one blank between a wave and its threshold: the line is ignored. -/
theorem two_blanks_ignored (w t : Name) (h1 : Trimmed w) (h2 : Trimmed t) (h3 : w.head? ≠ some '#') (ws : List (String × ℤ × ℝ)) :
    LineMeans float desc (w ++ ' ' :: ' ' :: t) ws ↔ ws = [] := by
  have ht : Trimmed (w ++ ' ' :: ' ' :: t) := by
    obtain ⟨⟨c, hc, hc'⟩, -⟩ := h1
    obtain ⟨-, ⟨d, hd, hd'⟩⟩ := h2
    have hw : w ≠ [] := by rintro rfl; simp at hc
    have htn : t ≠ [] := by rintro rfl; simp at hd
    refine ⟨⟨c, by rw [List.head?_append_of_ne_nil _ hw]; exact hc, hc'⟩, ⟨d, ?_, hd'⟩⟩
    rw [List.getLast?_append_of_ne_nil _ (by simp), List.getLast?_cons, List.getLast?_cons, hd]
    simp
  have hh : (w ++ ' ' :: ' ' :: t).head? ≠ some '#' := by
    obtain ⟨c, hc, -⟩ := h1.first
    have hw : w ≠ [] := by rintro rfl; simp at hc
    rw [List.head?_append_of_ne_nil _ hw]; exact h3
  have hcount : 2 ≤ (w ++ ' ' :: ' ' :: t).count ' ' := by
    rw [List.count_append, List.count_cons_self, List.count_cons_self]; omega
  constructor
  · rintro ⟨pre, body, post, h4, h5, h6, h7, h8⟩
    have h9 : body = w ++ ' ' :: ' ' :: t := by
      rw [← trimmed_unique h4 h5 h6 h7]
      have := strip_eq [] _ [] (by intro c hc; simp at hc) (by intro c hc; simp at hc) ht
      simpa using this
    subst h9
    generalize hs : w ++ ' ' :: ' ' :: t = s at h8 hh hcount
    cases h8 with
    | comment => rfl
    | wave _ _ _ h10 => rw [List.count_eq_zero.2 h10] at hcount; omega
    | threshold w' t' _ _ _ h10 h11 =>
      rw [List.count_append, List.count_cons_self, List.count_eq_zero.2 h10, List.count_eq_zero.2 h11] at hcount; omega
    | ignored => rfl
  · rintro rfl
    exact ⟨[], _, [], by simp, by intro c hc; simp at hc, by intro c hc; simp at hc, ht, .ignored _ hh hcount⟩

/-- **C91.** A list that is written with one wave per line is read back: waves, reflectivities and thresholds in the same order. -/
theorem wave_list_round_trip (ws : List (Name × Option Name)) (refl : Name → ℤ) (thr : Name → ℝ)
    (hw : ∀ w ∈ ws, (∀ c ∈ w.1, isBlank c = false) ∧ w.1 ≠ [] ∧ w.1.head? ≠ some '#' ∧ desc w.1 = some (refl w.1))
    (ht : ∀ w ∈ ws, ∀ t, w.2 = some t → (∀ c ∈ t, isBlank c = false) ∧ t ≠ [] ∧ float t = some (thr t)) :
    getWaveDescThresFromWaveList float desc (writeWaveList ws) =
      .ok (ws.map fun w => (String.ofList w.1, refl w.1, match w.2 with | none => 0 | some t => thr t)) := by
  have trimmed : ∀ s : Name, (∀ c ∈ s, isBlank c = false) → s ≠ [] → Trimmed s := by
    intro s hs hne
    obtain ⟨x, l, rfl⟩ := List.exists_cons_of_ne_nil hne
    refine ⟨⟨x, rfl, fun h => ?_⟩, ⟨(x :: l).getLast hne, List.getLast?_eq_getLast_of_ne_nil hne, fun h => ?_⟩⟩
    · have := hs x List.mem_cons_self; rw [(isBlank_iff x).2 h] at this; cases this
    · have := hs _ (List.getLast_mem hne); rw [(isBlank_iff _).2 h] at this; cases this
  have noBlank : ∀ s : Name, (∀ c ∈ s, isBlank c = false) → ∀ b, isBlank b = true → b ∉ s := by
    intro s hs b hb h; have := hs b h; rw [hb] at this; cases this
  unfold writeWaveList
  rw [wave_list_iff]
  · refine ⟨ws.map fun w => [(String.ofList w.1, refl w.1, match w.2 with | none => 0 | some t => thr t)], ?_, ?_⟩
    · rw [List.forall₂_map_left_iff, List.forall₂_map_right_iff, List.forall₂_same]
      intro w hwm
      obtain ⟨h1, h2, h3, h4⟩ := hw w hwm
      have nil : Blanks [] := by intro c hc; simp at hc
      have hsp := noBlank w.1 h1 ' ' rfl
      obtain ⟨n, o⟩ := w
      cases o with
      | none => exact ⟨[], n, [], by simp, nil, nil, trimmed n h1 h2, .wave n _ h3 hsp h4⟩
      | some t =>
        obtain ⟨h5, h6, h7⟩ := ht _ hwm t rfl
        refine ⟨[], n ++ ' ' :: t, [], by simp, nil, nil, ?_, .threshold n t _ _ h3 hsp (noBlank t h5 ' ' rfl) h4 h7⟩
        have t1 := trimmed n h1 h2
        have t2 := trimmed t h5 h6
        obtain ⟨c, hc, hc'⟩ := t1.first
        obtain ⟨d, hd, hd'⟩ := t2.last
        dsimp only at h2
        refine ⟨⟨c, by rw [List.head?_append_of_ne_nil _ h2]; exact hc, hc'⟩, ⟨d, ?_, hd'⟩⟩
        rw [List.getLast?_append_of_ne_nil _ (by simp), List.getLast?_cons, hd]
        simp
    · induction ws with
      | nil => rfl
      | cons w ws ih =>
        rw [List.map_cons, List.map_cons, List.flatten_cons, ← ih (fun x hx => hw x (List.mem_cons_of_mem _ hx))
          fun x hx => ht x (List.mem_cons_of_mem _ hx)]
        rfl
  · intro l hl
    obtain ⟨w, hwm, rfl⟩ := List.mem_map.1 hl
    obtain ⟨n, o⟩ := w
    have h1 := noBlank n (hw _ hwm).1 '\n' rfl
    cases o with
    | none => exact h1
    | some t =>
      have h2 := noBlank t (ht _ hwm t rfl).1 '\n' rfl
      simp [h1, h2]

end Rpwa.Select

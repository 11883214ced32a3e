import Verif.Props.Pickers
/-! Initialisation of the exponential picker -/
namespace Rpwa.Pick

theorem bind_ok_iff {α β : Type} (x : Outcome α) (f : α → Outcome β) (b : β) : (x >>= f) = .ok b ↔ ∃ a, x = .ok a ∧ f a = .ok b := by
  cases x with
  | ok a => exact ⟨fun h => ⟨a, rfl, h⟩, fun ⟨a', h, h'⟩ => by cases h; exact h'⟩
  | terminate => exact ⟨fun h => (by cases h), fun ⟨a', h, h'⟩ => by cases h⟩
  | ub => exact ⟨fun h => (by cases h), fun ⟨a', h, h'⟩ => by cases h⟩

theorem mapM_ok_iff {α β : Type} (f : α → Outcome β) (l : List α) (r : List β) : l.mapM f = .ok r ↔ List.Forall₂ (fun a b => f a = .ok b) l r := by
  induction l generalizing r with
  | nil =>
    rw [List.mapM_nil]
    constructor
    · intro h; cases h; exact .nil
    · intro h; cases h; rfl
  | cons a l ih =>
    rw [List.mapM_cons, bind_ok_iff]
    constructor
    · rintro ⟨b, hb, h⟩
      obtain ⟨bs, hbs, h⟩ := (bind_ok_iff _ _ _).1 h
      cases h
      exact .cons hb ((ih bs).1 hbs)
    · intro h
      cases h with
      | cons hb hbs => exact ⟨_, hb, (bind_ok_iff _ _ _).2 ⟨_, (ih _).2 hbs, rfl⟩⟩

theorem toDouble_iff (c : Cfg) (x : ℝ) : c.toDouble = .ok x ↔ c = .float x := by
  cases c with
  | float y => exact ⟨fun h => congrArg _ (Outcome.ok.inj h), fun h => congrArg _ (Cfg.float.inj h)⟩
  | _ => exact ⟨fun h => (by cases h), fun h => by cases h⟩

theorem array_at_iff (l : List Cfg) (i : ℕ) (c : Cfg) : (Cfg.array l).at i = .ok c ↔ l[i]? = some c := by
  unfold Cfg.at
  dsimp only
  cases l[i]? with
  | none => exact ⟨fun h => (by cases h), fun h => by cases h⟩
  | some d => exact ⟨fun h => congrArg _ (Outcome.ok.inj h), fun h => congrArg _ (Option.some.inj h)⟩

theorem list_at_iff (l : List Cfg) (i : ℕ) (c : Cfg) : (Cfg.list l).at i = .ok c ↔ l[i]? = some c := array_at_iff l i c

theorem read_array_iff (l : List Cfg) (p : List ℝ) : ((List.range l.length).mapM fun j => do
    let x ← (Cfg.array l).at j
    x.toDouble) = .ok p ↔ l = p.map .float := by
  rw [mapM_ok_iff]
  constructor
  · intro h
    refine List.ext_getElem ?_ ?_
    · rw [List.length_map, ← h.length_eq, List.length_range]
    · intro i h1 h2
      have h2' : i < p.length := by rw [List.length_map] at h2; exact h2
      have h3 := (List.forall₂_iff_get.1 h).2 i (by rw [List.length_range]; exact h1) h2'
      obtain ⟨c, hc, hx⟩ := (bind_ok_iff _ _ _).1 h3
      rw [List.get_eq_getElem, List.getElem_range, array_at_iff, List.getElem?_eq_getElem h1] at hc
      rw [Option.some.inj hc, List.getElem_map]
      exact (toDouble_iff _ _).1 hx
  · intro h
    subst h
    refine List.forall₂_iff_get.2 ⟨by rw [List.length_range, List.length_map], fun i h1 h2 => (bind_ok_iff _ _ _).2 ⟨.float (p.get ⟨i, h2⟩), ?_, rfl⟩⟩
    rw [List.get_eq_getElem, List.getElem_range, array_at_iff, List.getElem?_map, List.getElem?_eq_getElem h2]
    rfl

theorem slopeParams_iff (numbers : Bool) (n : ℕ) (c : Cfg) (p : List ℝ) : slopeParams (!numbers) n c = .ok (some p) ↔
    EntryParams numbers c p ∧ (numbers = false → (p.length + 1) / 2 = n) := by
  cases numbers with
  | true =>
    unfold slopeParams EntryParams
    rw [if_neg (by simp), if_neg (by simp), if_pos rfl, bind_ok_iff]
    constructor
    · rintro ⟨x, h1, h2⟩
      cases h2
      exact ⟨⟨x, (toDouble_iff _ _).1 h1, rfl⟩, fun h => by cases h⟩
    · rintro ⟨⟨x, h1, h2⟩, _⟩
      exact ⟨x, (toDouble_iff _ _).2 h1, by rw [h2]⟩
  | false =>
    unfold slopeParams EntryParams
    cases c with
    | array l =>
      rw [if_neg (by simp [Cfg.isArray]), if_pos (by simp)]
      have hl : (Cfg.array l).length = l.length := rfl
      rw [hl]
      by_cases h : (l.length + 1) / 2 = n
      · rw [if_neg (not_not.2 h), bind_ok_iff]
        constructor
        · rintro ⟨q, h1, h2⟩
          cases h2
          have h1 := (read_array_iff _ _).1 h1
          refine ⟨congrArg _ h1, fun _ => ?_⟩
          rw [h1, List.length_map] at h
          exact h
        · rintro ⟨h1, h2⟩
          exact ⟨p, (read_array_iff _ _).2 (Cfg.array.inj h1), rfl⟩
      · rw [if_pos h]
        constructor
        · intro e; cases e
        · rintro ⟨h1, h2⟩
          rw [Cfg.array.inj h1, List.length_map] at h
          exact absurd (h2 rfl) h
    | _ =>
      rw [if_pos (by simp [Cfg.isArray])]
      exact ⟨fun h => (by cases h), fun h => by simp at h⟩

/-- the signs that the picker requires of the parameters of `n` exponentials. -/
def Signs (n : ℕ) (p : List ℝ) : Prop := ∀ j < n, p.getD (2 * j) 0 < 0 ∧ (0 < j → 0 ≤ p.getD (2 * j - 1) 0)

theorem checkParams_iff (n : ℕ) (p : List ℝ) : checkParams n p = true ↔ Signs n p := by
  unfold checkParams Signs
  rw [List.all_eq_true]
  refine ⟨fun h j hj => ?_, fun h j hj => ?_⟩
  · have := h j (List.mem_range.2 hj)
    rw [Bool.and_eq_true, Bool.or_eq_true] at this
    refine ⟨of_decide_eq_true this.1, fun h0 => ?_⟩
    rcases this.2 with h2 | h2
    · exact absurd (by simpa using h2) (ne_of_gt h0)
    · exact of_decide_eq_true h2
  · obtain ⟨h1, h2⟩ := h j (List.mem_range.1 hj)
    rw [Bool.and_eq_true, Bool.or_eq_true]
    refine ⟨decide_eq_true h1, ?_⟩
    rcases Nat.eq_zero_or_pos j with h0 | h0
    · exact Or.inl (by simp [h0])
    · exact Or.inr (decide_eq_true (h2 h0))

/-- entry `i` of the settings is `e`, and the picker accepts it. -/
def IsEntry (masses slopes : List Cfg) (numbers : Bool) (n i : ℕ) (e : ℝ × List ℝ) : Prop :=
  masses[i]? = some (.float e.1) ∧ (∃ c, slopes[i]? = some c ∧ EntryParams numbers c e.2) ∧ (numbers = false → (e.2.length + 1) / 2 = n) ∧ Signs n e.2

theorem slopeStep_iff (ms ts : List Cfg) (numbers : Bool) (n : ℕ) (S S' : List (ℝ × List ℝ)) (i : ℕ) :
    slopeStep (.array ms) (.list ts) (!numbers) n S i = .ok (true, S') ↔ ∃ e, IsEntry ms ts numbers n i e ∧ S' = insertSlope e.1 e.2 S := by
  unfold slopeStep
  rw [bind_ok_iff]
  constructor
  · rintro ⟨c, hc, h⟩
    obtain ⟨p?, hp, h⟩ := (bind_ok_iff _ _ _).1 h
    cases p? with
    | none => cases h
    | some p =>
      dsimp only at h
      by_cases hk : checkParams n p = true
      · rw [if_pos hk] at h
        obtain ⟨m, hm, h⟩ := (bind_ok_iff _ _ _).1 h
        obtain ⟨x, hx, h⟩ := (bind_ok_iff _ _ _).1 h
        have h := congrArg Prod.snd (Outcome.ok.inj h)
        rw [(toDouble_iff _ _).1 hx] at hm
        obtain ⟨h1, h2⟩ := (slopeParams_iff _ _ _ _).1 hp
        exact ⟨(x, p), ⟨(array_at_iff _ _ _).1 hm, ⟨c, (list_at_iff _ _ _).1 hc, h1⟩, h2, (checkParams_iff _ _).1 hk⟩, h.symm⟩
      · rw [if_neg hk] at h
        obtain ⟨m, hm, h⟩ := (bind_ok_iff _ _ _).1 h
        obtain ⟨x, hx, h⟩ := (bind_ok_iff _ _ _).1 h
        cases congrArg Prod.fst (Outcome.ok.inj h)
  · rintro ⟨e, ⟨h1, ⟨c, h2, h3⟩, h4, h5⟩, rfl⟩
    refine ⟨c, (list_at_iff _ _ _).2 h2, ?_⟩
    rw [(slopeParams_iff _ _ _ _).2 ⟨h3, h4⟩, Outcome.ok_bind]
    dsimp only
    rw [if_pos ((checkParams_iff _ _).2 h5), (array_at_iff _ _ _).2 h1]
    rfl

theorem slopeLoop_iff (ms ts : List Cfg) (numbers : Bool) (n : ℕ) (k i : ℕ) (S S' : List (ℝ × List ℝ)) :
    slopeLoop (.array ms) (.list ts) (!numbers) n k i S = .ok (true, S') ↔
      ∃ es : List (ℝ × List ℝ), es.length = k ∧ (∀ j e, es[j]? = some e → IsEntry ms ts numbers n (i + j) e) ∧ S' = insertAll es S := by
  induction k generalizing i S with
  | zero =>
    constructor
    · intro h
      exact ⟨[], rfl, fun j e h => by simp at h, (congrArg Prod.snd (Outcome.ok.inj h)).symm⟩
    · rintro ⟨es, h1, _, h2⟩
      rw [List.length_eq_zero_iff.1 h1] at h2
      rw [h2]
      rfl
  | succ k ih =>
    unfold slopeLoop
    rw [bind_ok_iff]
    constructor
    · rintro ⟨⟨b, S1⟩, h1, h2⟩
      cases b with
      | false => cases congrArg Prod.fst (Outcome.ok.inj h2)
      | true =>
        obtain ⟨e, he, rfl⟩ := (slopeStep_iff _ _ _ _ _ _ _).1 h1
        obtain ⟨es, hl, hes, hS⟩ := (ih (i + 1) _).1 h2
        refine ⟨e :: es, by rw [List.length_cons, hl], fun j e' hj => ?_, hS⟩
        cases j with
        | zero =>
          cases (Option.some.inj hj)
          exact he
        | succ j =>
          have := hes j e' hj
          rw [Nat.add_right_comm, Nat.add_assoc] at this
          exact this
    · rintro ⟨es, hl, hes, hS⟩
      cases es with
      | nil => cases hl
      | cons e es =>
        refine ⟨_, (slopeStep_iff _ _ _ _ _ _ _).2 ⟨e, hes 0 e rfl, rfl⟩, ?_⟩
        refine (ih (i + 1) _).2 ⟨es, Nat.succ.inj hl, fun j e' hj => ?_, hS⟩
        have := hes (j + 1) e' hj
        rw [Nat.add_right_comm, Nat.add_assoc]
        exact this

theorem allThere_slopes {g : Group} : allThere g [("invariantMasses", .array), ("tSlopes", .list)] = true ↔
    ∃ ms ts, g "invariantMasses" = some (.array ms) ∧ g "tSlopes" = some (.list ts) := by
  unfold allThere
  simp only [List.all_cons, List.all_nil, Bool.and_true, Bool.and_eq_true]
  constructor
  · rintro ⟨h1, h2⟩
    cases e1 : g "invariantMasses" with
    | none => rw [e1] at h1; cases h1
    | some c1 => cases e2 : g "tSlopes" with
      | none => rw [e2] at h2; cases h2
      | some c2 =>
        rw [e1] at h1
        rw [e2] at h2
        have t1 := of_decide_eq_true h1
        have t2 := of_decide_eq_true h2
        cases c1 <;> first | cases t1 | skip
        cases c2 <;> first | cases t2 | skip
        exact ⟨_, _, rfl, rfl⟩
  · rintro ⟨lo, hi, h1, h2⟩
    rw [h1, h2]
    exact ⟨rfl, rfl⟩

/-- the entries `es` are acceptable as `n` exponentials each; the first entry decides how many there are. -/
structure Acceptable (numbers : Bool) (n : ℕ) (es : List (ℝ × List ℝ)) : Prop where
  hne : es ≠ []
  hnum : numbers = true → n = 1
  hodd : numbers = false → ∀ e ∈ es.head?, e.2.length % 2 = 1
  hlen : ∀ e ∈ es, (e.2.length + 1) / 2 = n
  hsigns : ∀ e ∈ es, Signs n e.2

theorem isEntry_forall (ms ts : List Cfg) (numbers : Bool) (n : ℕ) (es : List (ℝ × List ℝ)) (hn : numbers = true → n = 1)
    (hl : es.length = ms.length) (hl' : ms.length = ts.length) :
    (∀ j e, es[j]? = some e → IsEntry ms ts numbers n (0 + j) e) ↔
      ms = (es.map fun e => Cfg.float e.1) ∧ List.Forall₂ (EntryParams numbers) ts (es.map Prod.snd) ∧
        ∀ e ∈ es, (e.2.length + 1) / 2 = n ∧ Signs n e.2 := by
  constructor
  · intro h
    refine ⟨List.ext_getElem? fun j => ?_, List.forall₂_iff_get.2 ⟨by rw [List.length_map, hl, hl'], fun j h1 h2 => ?_⟩, fun e he => ?_⟩
    · rcases lt_or_ge j es.length with hj | hj
      · rw [List.getElem?_map, List.getElem?_eq_getElem hj]
        have := (h j _ (List.getElem?_eq_getElem hj)).1
        rw [zero_add] at this
        exact this
      · rw [List.getElem?_eq_none (hl ▸ hj), List.getElem?_eq_none (by rw [List.length_map]; exact hj)]
    · have hj : j < es.length := by rw [List.length_map] at h2; exact h2
      obtain ⟨c, hc, hp⟩ := (h j _ (List.getElem?_eq_getElem hj)).2.1
      rw [zero_add, List.getElem?_eq_getElem h1] at hc
      rw [List.get_eq_getElem, List.get_eq_getElem, List.getElem_map, Option.some.inj hc]
      exact hp
    · obtain ⟨j, hj, rfl⟩ := List.getElem_of_mem he
      obtain ⟨_, ⟨c, hc, hp⟩, h3, h4⟩ := h j _ (List.getElem?_eq_getElem hj)
      refine ⟨?_, h4⟩
      cases numbers with
      | false => exact h3 rfl
      | true =>
        obtain ⟨x, _, hx⟩ := hp
        rw [hx, hn rfl]
        norm_num
  · rintro ⟨h1, h2, h3⟩ j e he
    have he' : e ∈ es := List.mem_of_getElem? he
    rw [zero_add]
    refine ⟨by rw [h1, List.getElem?_map, he]; rfl, ?_, fun _ => (h3 e he').1, (h3 e he').2⟩
    obtain ⟨hj, rfl⟩ := List.getElem?_eq_some_iff.1 he
    have hj' : j < ts.length := by rw [← hl', ← hl]; exact hj
    refine ⟨ts[j], List.getElem?_eq_getElem hj', ?_⟩
    have := (List.forall₂_iff_get.1 h2).2 j hj' (by rw [List.length_map]; exact hj)
    rw [List.get_eq_getElem, List.get_eq_getElem, List.getElem_map] at this
    exact this

theorem initSlopes_iff (s s' : ExpPicker) (ms ts : List Cfg) (first : Cfg) (h0 : s.ranges.initialized = false) (hf : ts[0]? = some first)
    (hl : ms.length = ts.length) (hnum : slopesAreNumbers first = .ok true) : s.initSlopes (.array ms) (.list ts) first = .ok (true, s') ↔
    ∃ numbers es n, ms = (es.map fun e => Cfg.float e.1) ∧ List.Forall₂ (EntryParams numbers) ts (es.map Prod.snd) ∧ Acceptable numbers n es ∧
      s' = ⟨{ s.ranges with initialized := true }, insertAll es s.slopes, n⟩ := by
  have hlen : (Cfg.array ms).length = ms.length := rfl
  unfold ExpPicker.initSlopes
  constructor
  · intro h
    by_cases h1 : (!first.isNumber && first.length % 2 != 1) = true
    · rw [if_pos h1] at h
      cases congrArg Prod.fst (Outcome.ok.inj h)
    · rw [if_neg h1] at h
      obtain ⟨⟨b, S'⟩, hL, h⟩ := (bind_ok_iff _ _ _).1 h
      have hb := congrArg Prod.fst (Outcome.ok.inj h)
      dsimp only at hb
      subst hb
      have hs := congrArg Prod.snd (Outcome.ok.inj h)
      rw [hlen, slopeLoop_iff] at hL
      obtain ⟨es, hes, hE, rfl⟩ := hL
      obtain ⟨e1, e2, e3⟩ := (isEntry_forall ms ts first.isNumber _ es (fun e => if_pos e) hes hl).1 hE
      have hne : es ≠ [] := by
        intro e
        rw [e, List.length_nil] at hes
        rw [← hes] at hl
        rw [List.length_eq_zero_iff.1 hl.symm] at hf
        cases hf
      refine ⟨first.isNumber, es, _, e1, e2, ⟨hne, fun e => if_pos e, fun e => ?_, fun e he => (e3 e he).1, fun e he => (e3 e he).2⟩, ?_⟩
      · intro x hx
        cases es with
        | nil => cases hx
        | cons y es =>
          cases (Option.some.inj hx)
          cases ts with
          | nil => cases hf
          | cons c ts =>
            cases (Option.some.inj hf)
            rw [List.map_cons] at e2
            cases e2 with
            | cons hy _ =>
              rw [e] at hy h1
              unfold EntryParams at hy
              rw [if_neg (by decide)] at hy
              rw [hy] at h1
              simpa [Cfg.length] using h1
      · exact hs.symm
  · rintro ⟨numbers, es, n, e1, e2, hA, rfl⟩
    have hes : es.length = ms.length := by rw [e1, List.length_map]
    have hE := (isEntry_forall ms ts numbers n es hA.hnum hes hl).2 ⟨e1, e2, fun e he => ⟨hA.hlen e he, hA.hsigns e he⟩⟩
    have hL := (slopeLoop_iff ms ts numbers n ms.length 0 s.slopes _).2 ⟨es, hes, hE, rfl⟩
    have hfirst : first.isNumber = numbers ∧ (numbers = false → first.length % 2 = 1 ∧ (first.length + 1) / 2 = n) := by
      obtain ⟨x, xs, hx⟩ := List.exists_cons_of_ne_nil hA.hne
      subst hx
      cases ts with
      | nil => cases hf
      | cons c ts =>
        cases (Option.some.inj hf)
        rw [List.map_cons] at e2
        cases e2 with
        | cons hy _ =>
          cases numbers with
          | true =>
            obtain ⟨y, hy, _⟩ := hy
            rw [hy]
            exact ⟨rfl, fun h => (by cases h)⟩
          | false =>
            unfold EntryParams at hy
            rw [if_neg (by decide)] at hy
            have a := hA.hodd rfl x rfl
            have b := hA.hlen x List.mem_cons_self
            have hl2 : first.length = x.2.length := by rw [hy]; exact List.length_map _
            rw [hl2]
            refine ⟨by rw [hy]; rfl, fun _ => ⟨a, b⟩⟩
    have h1 : ¬ ((!first.isNumber && first.length % 2 != 1) = true) := by
      rw [hfirst.1]
      cases numbers with
      | true => simp
      | false => simp [(hfirst.2 rfl).1]
    have h2 : (if first.isNumber then 1 else (first.length + 1) / 2) = n := by
      rw [hfirst.1]
      cases numbers with
      | true => exact (hA.hnum rfl).symm
      | false => exact (hfirst.2 rfl).2
    rw [if_neg h1]
    dsimp only
    rw [h2, hfirst.1, hlen, hL, Outcome.ok_bind]
    rfl

theorem first_number {numbers : Bool} {n : ℕ} {es : List (ℝ × List ℝ)} {ts : List Cfg} (hA : Acceptable numbers n es)
    (h : List.Forall₂ (EntryParams numbers) ts (es.map Prod.snd)) : ∃ first, ts[0]? = some first ∧ slopesAreNumbers first = .ok true := by
  obtain ⟨x, xs, hx⟩ := List.exists_cons_of_ne_nil hA.hne
  subst hx
  rw [List.map_cons] at h
  cases h with
  | cons hy _ =>
    refine ⟨_, rfl, ?_⟩
    cases numbers with
    | true =>
      obtain ⟨y, hy, _⟩ := hy
      rw [hy]
      rfl
    | false =>
      unfold EntryParams at hy
      rw [if_neg (by decide)] at hy
      have a := hA.hodd rfl x rfl
      rw [hy]
      obtain ⟨m, p⟩ := x
      cases p with
      | nil => simp at a
      | cons y p => rfl

/-- what `init` accepts, and the state it leaves: the ranges of the settings; and slopes that are all given as numbers or all as arrays, with the required
signs.  (`insertAll`: entries already in the picker are kept.) -/
theorem exp_init_iff (s s' : ExpPicker) (g : Group) : s.init g = .ok (true, s') ↔
    s.ranges.initialized = false ∧ ∃ r numbers es n, RangeSettings g s.ranges.tLo s.ranges.tHi r ∧ SlopeSettings g numbers es ∧
      Acceptable numbers n es ∧ s' = ⟨{ r with initialized := true }, insertAll es s.slopes, n⟩ := by
  unfold ExpPicker.init
  rw [bind_ok_iff]
  constructor
  · rintro ⟨⟨b, r⟩, hr, h⟩
    cases b with
    | false => cases congrArg Prod.fst (Outcome.ok.inj h)
    | true =>
      obtain ⟨i1, i2, hR⟩ := (initRanges_iff _ _ _).1 hr
      refine ⟨i1, r, ?_⟩
      dsimp only at h
      rw [if_neg (by decide)] at h
      by_cases h1 : allThere g [("invariantMasses", .array), ("tSlopes", .list)] = true
      · have : ¬ ((!allThere g [("invariantMasses", CfgType.array), ("tSlopes", CfgType.list)]) = true) := by rw [h1]; decide
        rw [if_neg this] at h
        obtain ⟨ms, ts, e1, e2⟩ := allThere_slopes.1 h1
        rw [e1, e2] at h
        dsimp only at h
        by_cases h2 : (Cfg.array ms).length ≠ (Cfg.list ts).length
        · rw [if_pos h2] at h
          cases congrArg Prod.fst (Outcome.ok.inj h)
        · rw [if_neg h2] at h
          have h2 : ms.length = ts.length := not_not.1 h2
          obtain ⟨m0, _, h⟩ := (bind_ok_iff _ _ _).1 h
          by_cases h3 : (!m0.isNumber) = true
          · rw [if_pos h3] at h
            cases congrArg Prod.fst (Outcome.ok.inj h)
          · rw [if_neg h3] at h
            obtain ⟨first, hf, h⟩ := (bind_ok_iff _ _ _).1 h
            obtain ⟨num, hn, h⟩ := (bind_ok_iff _ _ _).1 h
            cases num with
            | false => cases congrArg Prod.fst (Outcome.ok.inj h)
            | true =>
              rw [if_neg (by decide)] at h
              obtain ⟨numbers, es, n, a1, a2, a3, a4⟩ := (initSlopes_iff { s with ranges := r } s' ms ts first i2 ((list_at_iff _ _ _).1 hf) h2 hn).1 h
              exact ⟨numbers, es, n, hR, ⟨by rw [e1, a1], ts, e2, a2⟩, a3, a4⟩
      · have h1' : allThere g [("invariantMasses", .array), ("tSlopes", .list)] = false := by simpa using h1
        rw [if_pos (by rw [h1']; rfl)] at h
        cases congrArg Prod.fst (Outcome.ok.inj h)
  · rintro ⟨i1, r, numbers, es, n, hR, ⟨e1, ts, e2, hT⟩, hA, rfl⟩
    have hR' : RangeSettings g s.ranges.tLo s.ranges.tHi { r with initialized := false } := ⟨hR.1, hR.2, hR.3, hR.4, hR.5, hR.6⟩
    refine ⟨(true, { r with initialized := false }), (initRanges_iff _ _ _).2 ⟨i1, rfl, hR'⟩, ?_⟩
    dsimp only
    rw [if_neg (by decide), if_neg (by rw [allThere_slopes.2 ⟨_, _, e1, e2⟩]; decide), e1, e2]
    dsimp only
    have hl : (es.map fun e => Cfg.float e.1).length = ts.length := by
      rw [hT.length_eq, List.length_map, List.length_map]
    have hl' : ¬ (Cfg.array (es.map fun e => Cfg.float e.1)).length ≠ (Cfg.list ts).length := not_not.2 hl
    rw [if_neg hl']
    obtain ⟨first, hf, hn⟩ := first_number hA hT
    obtain ⟨x, xs, hx⟩ := List.exists_cons_of_ne_nil hA.hne
    have hm0 : (Cfg.array (es.map fun e => Cfg.float e.1)).at 0 = .ok (.float x.1) := by rw [hx]; rfl
    rw [hm0, Outcome.ok_bind, if_neg (show ¬ ((!(Cfg.float x.1).isNumber) = true) from by simp [Cfg.isNumber]), (list_at_iff _ _ _).2 hf, Outcome.ok_bind, hn, Outcome.ok_bind, if_neg (by decide)]
    exact (initSlopes_iff _ _ _ ts first rfl hf hl hn).2 ⟨numbers, es, n, rfl, hT, hA, rfl⟩

end Rpwa.Pick

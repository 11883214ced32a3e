import Verif.Spec.Pickers
import Verif.Lemmas.Outcome
import Mathlib.Tactic.NormNum.Ineq
import Mathlib.Tactic.Linarith
import Mathlib.Tactic.Push
/-! Initialisation of the pickers of mass and t' -/
namespace Rpwa.Pick

theorem allThere_mass {g : Group} : allThere g [("massMin", .float), ("massMax", .float)] = true ↔
    ∃ lo hi, g "massMin" = some (.float lo) ∧ g "massMax" = some (.float hi) := by
  unfold allThere
  simp only [List.all_cons, List.all_nil, Bool.and_true, Bool.and_eq_true]
  constructor
  · rintro ⟨h1, h2⟩
    cases e1 : g "massMin" with
    | none => rw [e1] at h1; cases h1
    | some c1 => cases e2 : g "massMax" with
      | none => rw [e2] at h2; cases h2
      | some c2 =>
        rw [e1] at h1
        rw [e2] at h2
        have t1 := of_decide_eq_true h1
        have t2 := of_decide_eq_true h2
        cases c1 <;> first | cases t1 | skip
        cases c2 <;> first | cases t2 | skip
        exact ⟨_, _, rfl, rfl⟩
  · rintro ⟨lo, hi, h1, h2⟩
    rw [h1, h2]
    exact ⟨rfl, rfl⟩

theorem lookupDouble_iff (g : Group) (n : String) (old x : ℝ) : g.lookupDouble n old = x ↔
    g n = some (.float x) ∨ x = old ∧ ∀ y, g n ≠ some (.float y) := by
  unfold Group.lookupDouble
  cases h : g n with
  | none => constructor
            · intro e
              exact Or.inr ⟨e.symm, fun y hy => by cases hy⟩
            · rintro (e | ⟨e, _⟩)
              · cases e
              · exact e.symm
  | some c => cases c with
    | float y =>
      constructor
      · intro e
        exact Or.inl (congrArg _ (congrArg _ e))
      · rintro (e | ⟨_, e⟩)
        · exact Cfg.float.inj (Option.some.inj e)
        · exact absurd rfl (e y)
    | _ =>
      constructor
      · intro e
        exact Or.inr ⟨e.symm, fun y hy => by cases hy⟩
      · rintro (e | ⟨e, _⟩)
        · cases e
        · exact e.symm

/-- the ranges are initialised exactly if they have not been initialised before, both mass limits are given as floating-point numbers and neither range
is reversed; the values are those of the settings. -/
theorem initRanges_iff (s r : Ranges) (g : Group) : initRanges s g = .ok (true, r) ↔
    s.initialized = false ∧ r.initialized = false ∧ RangeSettings g s.tLo s.tHi r := by
  unfold initRanges
  by_cases h0 : s.initialized = true
  · rw [if_pos h0]
    constructor
    · intro e; cases Outcome.ok.inj e
    · rintro ⟨h, _⟩; rw [h] at h0; cases h0
  rw [if_neg h0]
  have h0' : s.initialized = false := by simpa using h0
  by_cases h1 : allThere g [("massMin", .float), ("massMax", .float)] = true
  · have : ¬ ((!allThere g [("massMin", CfgType.float), ("massMax", CfgType.float)]) = true) := by rw [h1]; decide
    rw [if_neg this]
    obtain ⟨lo, hi, e1, e2⟩ := allThere_mass.1 h1
    have d1 : g.double "massMin" = .ok lo := by unfold Group.double; rw [e1]; rfl
    have d2 : g.double "massMax" = .ok hi := by unfold Group.double; rw [e2]; rfl
    rw [d1, Outcome.ok_bind, d2, Outcome.ok_bind]
    by_cases h2 : hi < lo
    · rw [if_pos h2]
      constructor
      · intro e; cases congrArg Prod.fst (Outcome.ok.inj e)
      · rintro ⟨_, _, h⟩
        have a := Cfg.float.inj (Option.some.inj (e1.symm.trans h.hmassLo))
        have b := Cfg.float.inj (Option.some.inj (e2.symm.trans h.hmassHi))
        have := h.hmass
        rw [← a, ← b] at this
        exact absurd h2 (not_lt.2 this)
    · rw [if_neg h2]
      dsimp only
      constructor
      · intro e
        have e := Outcome.ok.inj e
        have ea := of_decide_eq_true (congrArg Prod.fst e)
        have eb := congrArg Prod.snd e
        dsimp only at ea eb
        subst eb
        refine ⟨h0', h0', e1, e2, not_lt.1 h2, (lookupDouble_iff g _ _ _).1 rfl, (lookupDouble_iff g _ _ _).1 rfl, not_lt.1 ea⟩
      · rintro ⟨_, hi', h⟩
        have a := Cfg.float.inj (Option.some.inj (e1.symm.trans h.hmassLo))
        have b := Cfg.float.inj (Option.some.inj (e2.symm.trans h.hmassHi))
        have c := (lookupDouble_iff g _ s.tLo _).2 h.htLo
        have d := (lookupDouble_iff g _ s.tHi _).2 h.htHi
        have t := h.ht
        rw [c, d, a, b]
        congr 1
        refine Prod.ext (decide_eq_true (not_lt.2 t)) ?_
        cases r
        dsimp only at hi' ⊢
        rw [h0', hi']
  · have h1' : allThere g [("massMin", .float), ("massMax", .float)] = false := by simpa using h1
    rw [if_pos (by rw [h1']; rfl)]
    constructor
    · intro e; cases congrArg Prod.fst (Outcome.ok.inj e)
    · rintro ⟨_, _, h⟩
      exact absurd (allThere_mass.2 ⟨_, _, h.hmassLo, h.hmassHi⟩) h1

/-- the ranges of an initialised picker are never changed by another initialisation. -/
theorem initRanges_again (s : Ranges) (g : Group) (h : s.initialized = true) : initRanges s g = .ok (false, s) := by
  unfold initRanges
  rw [if_pos h]

/-- a picker is initialised only once: every later call of `init` is refused and changes nothing (each kind of picker). -/
theorem exp_init_again (s : ExpPicker) (g : Group) (h : s.ranges.initialized = true) : s.init g = .ok (false, s) := by
  unfold ExpPicker.init
  rw [initRanges_again _ g h, Outcome.ok_bind]
  rfl

theorem poly_init_again (s : PolyPicker) (g : Group) (h : s.ranges.initialized = true) : s.init g = .ok (false, s) := by
  unfold PolyPicker.init
  rw [initRanges_again _ g h, Outcome.ok_bind]
  rfl

theorem uniform_init_again (s : Ranges) (g : Group) (h : s.initialized = true) : uniformInit s g = .ok (false, s) := by
  unfold uniformInit
  rw [initRanges_again _ g h]
  cases allThere g [("tPrimeMin", CfgType.float), ("tPrimeMax", CfgType.float)]
  · rfl
  · cases s
    dsimp only at h
    subst h
    rfl

/-- nothing can be picked from a picker that has not been initialised. -/
theorem not_initialised (eps : ℝ) (s : ExpPicker) (q : PolyPicker) (u : Ranges) (m r : ℝ) (rs : List ℝ) (hs : s.ranges.initialized = false)
    (hq : q.ranges.initialized = false) (hu : u.initialized = false) :
    s.pick eps r rs = .ok none ∧ s.pickT eps m rs = .ok none ∧ q.pickT m rs = none ∧ uniformPick u r m = none ∧
      u.overrideMassRange m r = .terminate := by
  refine ⟨?_, ?_, ?_, ?_, ?_⟩
  · unfold ExpPicker.pick; rw [hs]; rfl
  · unfold ExpPicker.pickT; rw [hs]; rfl
  · unfold PolyPicker.pickT; rw [hq]; rfl
  · unfold uniformPick; rw [hu]; rfl
  · unfold Ranges.overrideMassRange; rw [hu]; rfl

/-! ### slopes -/

theorem insertSlope_mem (m : ℝ) (p : List ℝ) (S : List (ℝ × List ℝ)) {e : ℝ × List ℝ} (h : e ∈ insertSlope m p S) : e = (m, p) ∨ e ∈ S := by
  induction S with
  | nil => exact Or.inl (List.mem_singleton.1 h)
  | cons a S ih =>
    unfold insertSlope at h
    split_ifs at h
    · rcases List.mem_cons.1 h with h | h
      · exact Or.inl h
      · exact Or.inr h
    · exact Or.inr h
    · rcases List.mem_cons.1 h with h | h
      · exact Or.inr (h ▸ List.mem_cons_self)
      · rcases ih h with h | h
        · exact Or.inl h
        · exact Or.inr (List.mem_cons_of_mem _ h)

/-- strictly sorted by mass. -/
def Sorted (S : List (ℝ × List ℝ)) : Prop := S.Pairwise fun a b => a.1 < b.1

theorem insertSlope_sorted (m : ℝ) (p : List ℝ) (S : List (ℝ × List ℝ)) (h : Sorted S) : Sorted (insertSlope m p S) := by
  induction S with
  | nil => exact List.pairwise_singleton _ _
  | cons a S ih =>
    obtain ⟨ha, hS⟩ := List.pairwise_cons.1 h
    unfold insertSlope
    split_ifs with h1 h2
    · refine List.pairwise_cons.2 ⟨fun b hb => ?_, h⟩
      rcases List.mem_cons.1 hb with hb | hb
      · rw [hb]; exact h1
      · exact h1.trans (ha b hb)
    · exact h
    · refine List.pairwise_cons.2 ⟨fun b hb => ?_, ih hS⟩
      rcases insertSlope_mem m p S hb with hb | hb
      · rw [hb]; exact lt_of_le_of_ne (not_lt.1 h1) (fun e => h2 e.symm)
      · exact ha b hb

theorem valueAt_none_of_lt (S : List (ℝ × List ℝ)) (x : ℝ) (h : ∀ e ∈ S, x < e.1) : valueAt S x = none := by
  unfold valueAt
  rw [List.find?_eq_none.2 ?_]
  · rfl
  · intro e he
    have := h e he
    simpa using ne_of_gt this

theorem valueAt_cons (e : ℝ × List ℝ) (S : List (ℝ × List ℝ)) (x : ℝ) : valueAt (e :: S) x = if e.1 = x then some e.2 else valueAt S x := by
  unfold valueAt
  rw [List.find?_cons]
  by_cases h : e.1 = x
  · rw [if_pos h, decide_eq_true h]
    rfl
  · rw [if_neg h, decide_eq_false h]

theorem insertSlope_valueAt (m : ℝ) (p : List ℝ) (S : List (ℝ × List ℝ)) (h : Sorted S) (x : ℝ) :
    valueAt (insertSlope m p S) x = (valueAt S x).or (if m = x then some p else none) := by
  induction S with
  | nil => unfold insertSlope; rw [valueAt_cons]; rfl
  | cons a S ih =>
    obtain ⟨ha, hS⟩ := List.pairwise_cons.1 h
    unfold insertSlope
    by_cases h1 : m < a.1
    · rw [if_pos h1, valueAt_cons]
      by_cases h3 : m = x
      · rw [if_pos h3, valueAt_none_of_lt, if_pos h3]
        · rfl
        · intro e he
          rw [← h3]
          rcases List.mem_cons.1 he with he | he
          · rw [he]; exact h1
          · exact h1.trans (ha e he)
      · rw [if_neg h3, if_neg h3, Option.or_none]
    · rw [if_neg h1]
      by_cases h2 : m = a.1
      · rw [if_pos h2]
        by_cases h3 : m = x
        · rw [valueAt_cons, if_pos (h2.symm.trans h3)]
          rfl
        · rw [if_neg h3, Option.or_none]
      · rw [if_neg h2, valueAt_cons, valueAt_cons, ih hS]
        by_cases h3 : a.1 = x
        · rw [if_pos h3, if_pos h3]
          rfl
        · rw [if_neg h3, if_neg h3]

/-- entries inserted one after the other. -/
noncomputable def insertAll (es S : List (ℝ × List ℝ)) : List (ℝ × List ℝ) := es.foldl (fun S e => insertSlope e.1 e.2 S) S

theorem insertAll_sorted (es S : List (ℝ × List ℝ)) (h : Sorted S) : Sorted (insertAll es S) := by
  induction es generalizing S with
  | nil => exact h
  | cons e es ih => exact ih _ (insertSlope_sorted _ _ _ h)

theorem insertAll_mem (es S : List (ℝ × List ℝ)) {e : ℝ × List ℝ} (h : e ∈ insertAll es S) : e ∈ es ∨ e ∈ S := by
  induction es generalizing S with
  | nil => exact Or.inr h
  | cons a es ih =>
    rcases ih _ h with h | h
    · exact Or.inl (List.mem_cons_of_mem _ h)
    · rcases insertSlope_mem _ _ _ h with h | h
      · exact Or.inl (h ▸ List.mem_cons_self)
      · exact Or.inr h

theorem insertAll_valueAt (es S : List (ℝ × List ℝ)) (h : Sorted S) (x : ℝ) :
    valueAt (insertAll es S) x = (valueAt S x).or (valueAt es x) := by
  induction es generalizing S with
  | nil => exact (Option.or_none).symm
  | cons e es ih =>
    refine (ih _ (insertSlope_sorted _ _ _ h)).trans ?_
    rw [insertSlope_valueAt _ _ _ h, valueAt_cons, Option.or_assoc]
    congr 1
    split_ifs <;> rfl

end Rpwa.Pick

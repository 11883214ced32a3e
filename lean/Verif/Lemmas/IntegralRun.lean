import Verif.Props.IntegralMatrix
import Verif.Lemmas.PwaFit
/-! Lemmas for C89: when `integrate` on a new matrix succeeds. -/
namespace Rpwa.Integral

theorem readAmps_nonempty {trees : List AmpTree} {ev : ℕ} {r : List (List ℂ)} (h : readAmps trees ev = .ok r) :
    ∀ t ∈ trees, t.events.getD ev [] ≠ [] := by
  induction trees generalizing r with
  | nil => simp
  | cons t ts ih =>
    simp only [readAmps] at h
    cases he : t.events[ev]? with
    | none => rw [he] at h; simp at h
    | some l =>
      rw [he] at h
      cases l with
      | nil => simp at h
      | cons a as =>
        simp only at h
        cases hq : readAmps ts ev with
        | ok q =>
          intro u hu
          rcases List.mem_cons.1 hu with rfl | hu
          · simp [he]
          · exact ih hq u hu
        | terminate => rw [hq] at h; simp at h
        | ub => rw [hq] at h; simp at h

theorem readAmps_returns (trees : List AmpTree) (ev : ℕ) (h : ∀ t ∈ trees, t.events.getD ev [] ≠ []) :
    readAmps trees ev = .ok (trees.map fun t => t.events.getD ev []) := by
  induction trees with
  | nil => rfl
  | cons t ts ih =>
    have h0 := h t (by simp)
    simp only [readAmps]
    cases he : t.events[ev]? with
    | none => simp [he] at h0
    | some l =>
      cases l with
      | nil => simp [he] at h0
      | cons a as =>
        dsimp only
        rw [ih fun u hu => h u (by simp [hu])]
        simp [he]

/-- every event read so far had amplitudes. -/
def ReadInv (trees : List AmpTree) (inBin : Option (ℕ → Bool)) (e : ℕ) (s : Acc) : Prop :=
  s.stopped = false → ∀ ev ∈ selUpTo inBin e, ∀ t ∈ trees, t.events.getD ev [] ≠ []

theorem eventStep_read (trees : List AmpTree) (uw : Bool) (inBin : Option (ℕ → Bool)) (e : ℕ) (s r : Acc)
    (hs : ReadInv trees inBin e s) (h : eventStep trees uw inBin e s = .ok r) : ReadInv trees inBin (e + 1) r := by
  unfold eventStep at h
  by_cases hst : s.stopped = true
  · rw [if_pos hst] at h; cases h
    intro hc; simp [hst] at hc
  rw [if_neg hst] at h
  have hst' : s.stopped = false := by simpa using hst
  by_cases hb : (inBin.map (· e)).getD true = false
  · rw [if_pos hb] at h; cases h
    have hL : selUpTo inBin (e + 1) = selUpTo inBin e := by simp [selUpTo, List.range_succ, hb]
    unfold ReadInv
    rw [hL]; exact hs
  rw [if_neg hb] at h
  have hb' : (inBin.map (· e)).getD true = true := by simpa using hb
  have hL : selUpTo inBin (e + 1) = selUpTo inBin e ++ [e] := by
    simp [selUpTo, List.range_succ, List.filter_append, hb']
  dsimp only at h
  intro hr ev hev t ht
  rw [hL, List.mem_append, List.mem_singleton] at hev
  split at h
  · cases h; simp at hr
  · cases hq : readAmps trees e with
    | ok q =>
      rcases hev with hev | rfl
      · exact hs hst' ev hev t ht
      · exact readAmps_nonempty hq t ht
    | terminate => rw [hq] at h; simp at h
    | ub => rw [hq] at h; simp at h

/-- the events of the loop. -/
theorem selUpTo_some (test : ℕ → Bool) (n : ℕ) : selUpTo (some test) n = (List.range n).filter test := by
  simp [selUpTo]

theorem loop_returns (trees : List AmpTree) (w : Option WeightFile) (test : ℕ → Bool) (n : ℕ)
    (hread : ∀ ev < n, test ev = true → ∀ t ∈ trees, t.events.getD ev [] ≠ [] ∧
      ∀ u ∈ trees, (t.events.getD ev []).length = (u.events.getD ev []).length)
    (hw : ∀ ws, w = some ws → ((List.range n).filter test).length ≤ ws.length) :
    ∃ acc, forRange n ⟨0, 0, fun _ _ => 0, w.getD [], true, false⟩ (eventStep trees w.isSome (some test)) = .ok acc ∧
      acc.stopped = false ∧ LoopInv trees w (some test) n acc := by
  induction n with
  | zero =>
    refine ⟨_, rfl, rfl, ?_⟩
    refine ⟨by simp, fun _ => ?_⟩
    simp [selUpTo]
  | succ n ih =>
    have hmono : ((List.range n).filter test).length ≤ ((List.range (n + 1)).filter test).length := by
      simp [List.range_succ, List.filter_append]
    obtain ⟨acc, h1, h2, h3⟩ := ih (fun ev hev => hread ev (by omega)) (fun ws hws => le_trans hmono (hw ws hws))
    simp only [forRange, h1, Outcome.ok_bind]
    suffices hstep : ∃ r, eventStep trees w.isSome (some test) n acc = .ok r ∧ r.stopped = false by
      obtain ⟨r, e1, e2⟩ := hstep
      exact ⟨r, e1, e2, eventStep_inv trees w (some test) n acc r h3 e1⟩
    unfold eventStep
    rw [if_neg (by simp [h2])]
    by_cases ht : test n = true
    · rw [if_neg (by simp [ht])]
      dsimp only
      have hn := hread n (by omega) ht
      rw [readAmps_returns trees n fun t h => (hn t h).1]
      have hall : ((trees.map fun t => t.events.getD n []).all fun a =>
          (trees.map fun t => t.events.getD n []).all fun b => a.length == b.length) = true := by
        simp only [List.all_eq_true, List.mem_map, forall_exists_index, and_imp, forall_apply_eq_imp_iff₂, beq_iff_eq]
        intro t h u hu
        exact (hn t h).2 u hu
      obtain ⟨_, c2, _, _, _, _⟩ := h3.2 h2
      cases hwc : w with
      | none =>
        subst hwc
        simp only [Option.isSome_none, Bool.false_eq_true, if_false, Outcome.ok_bind]
        rw [if_pos hall]
        exact ⟨_, rfl, h2⟩
      | some ws =>
        subst hwc
        simp only [Option.isSome_some, if_true, Option.getD_some] at c2 ⊢
        have hlt : (selUpTo (some test) n).length < ws.length := by
          have := hw ws rfl
          rw [List.range_succ, List.filter_append] at this
          simp [ht] at this
          rw [selUpTo_some]; omega
        rw [c2, List.drop_eq_getElem_cons hlt]
        simp only [Outcome.ok_bind]
        rw [if_pos hall]
        exact ⟨_, rfl, h2⟩
    · rw [if_pos (by simpa using ht)]
      exact ⟨acc, rfl, h2⟩

/-- `integrate` on a new matrix, with event metadata: when it succeeds. -/
theorem integrate_succeeds_iff (trees : List AmpTree) (w : Option WeightFile) (n : ℕ) (test : ℕ → Bool) :
    (∃ r, empty.integrate trees (-1) w (some (n, test)) = .ok (true, r)) ↔
      trees ≠ [] ∧ n ≠ 0 ∧ (∀ t ∈ trees, t.events.length = n) ∧
      (∀ ev < n, test ev = true → ∀ t ∈ trees, t.events.getD ev [] ≠ [] ∧
        ∀ u ∈ trees, (t.events.getD ev []).length = (u.events.getD ev []).length) ∧
      (∀ ws, w = some ws → ((List.range n).filter test).length ≤ ws.length) := by
  cases trees with
  | nil => simp [IntMat.integrate]
  | cons t ts =>
    unfold IntMat.integrate
    dsimp only
    rw [if_pos (by rfl : empty.names = [])]
    dsimp only
    by_cases h0 : t.events.length = 0
    · rw [if_pos h0]
      constructor
      · rintro ⟨r, h⟩; simp at h
      · rintro ⟨_, hn, hl, _⟩
        exact absurd (by rw [← hl t (by simp)]; exact h0) hn
    rw [if_neg h0]
    by_cases h1 : ((t :: ts).any fun u => u.events.length != t.events.length) = true
    · rw [if_pos h1]
      constructor
      · rintro ⟨r, h⟩; simp at h
      · rintro ⟨_, hn, hl, _⟩
        rw [List.any_eq_true] at h1
        obtain ⟨u, hu, hne⟩ := h1
        simp [hl u hu, hl t (by simp)] at hne
    rw [if_neg h1]
    have h1' : ∀ u ∈ t :: ts, u.events.length = t.events.length := by
      intro u hu
      by_contra hc
      exact h1 (List.any_eq_true.2 ⟨u, hu, by simpa using hc⟩)
    by_cases h2 : n ≠ t.events.length
    · rw [if_pos h2]
      constructor
      · rintro ⟨r, h⟩; simp at h
      · rintro ⟨_, hn, hl, _⟩
        exact absurd (hl t (by simp)).symm h2
    rw [if_neg h2]
    have h2' : n = t.events.length := not_not.1 h2
    rw [if_pos (by decide : (-1 : ℤ) ≤ 0), ← h2']
    rw [← h2'] at h1' h0
    unfold IntMat.integrate.finish
    constructor
    · rintro ⟨r, h⟩
      cases hl : forRange n ⟨0, 0, fun _ _ => 0, w.getD [], true, false⟩ (eventStep (t :: ts) w.isSome (some test)) with
      | terminate => rw [hl] at h; simp at h
      | ub => rw [hl] at h; simp at h
      | ok acc =>
        rw [hl] at h
        have inv := forRange_inv (LoopInv (t :: ts) w (some test)) n _ acc _ (by
          refine ⟨by simp, fun _ => ?_⟩
          simp [selUpTo]) (fun i hi a b ha hb => eventStep_inv (t :: ts) w (some test) i a b ha hb) hl
        have inv2 := forRange_inv (ReadInv (t :: ts) (some test)) n _ acc _ (by
          intro _ ev hev
          simp [selUpTo] at hev) (fun i hi a b ha hb => eventStep_read (t :: ts) w.isSome (some test) i a b ha hb) hl
        simp only [Outcome.ok_bind] at h
        have hsucc : acc.success = true := (Prod.ext_iff.1 (Outcome.ok.inj h)).1
        obtain ⟨i1, i2⟩ := inv
        have hst : acc.stopped = false := by rw [hsucc] at i1; simpa using i1.symm
        obtain ⟨c1, c2, c3, c4, c5, c6⟩ := i2 hst
        have inv2 := inv2 hst
        rw [selUpTo_some] at c3 c5 inv2
        refine ⟨by simp, h0, h1', ?_, fun ws hws => by subst hws; simpa using c3⟩
        intro ev hev htest u hu
        have hmem : ev ∈ (List.range n).filter test := List.mem_filter.2 ⟨List.mem_range.2 hev, htest⟩
        refine ⟨inv2 ev hmem u hu, fun v hv => ?_⟩
        obtain ⟨i, hi, rfl⟩ := List.mem_iff_getElem.1 hu
        obtain ⟨j, hj, rfl⟩ := List.mem_iff_getElem.1 hv
        have := c5 ev hmem i j hi hj
        unfold ampsAt at this
        rw [List.getElem?_eq_getElem hi, List.getElem?_eq_getElem hj] at this
        simpa using this
    · rintro ⟨_, _, _, hread, hw⟩
      obtain ⟨acc, a1, a2, a3⟩ := loop_returns (t :: ts) w test n hread hw
      rw [a1]
      simp only [Outcome.ok_bind]
      refine ⟨_, by rw [show acc.success = true by rw [a3.1, a2]; rfl]⟩

end Rpwa.Integral

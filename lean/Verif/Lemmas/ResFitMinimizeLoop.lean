import Verif.Lemmas.ResFitMinimize

/-!
# The loop over the steps of a resonance-model fit (C78)
-/

namespace Rpwa.ResMin

open ResFit (Name Params St Component Channel Fsmd Model Input)
open ResFit.Spec (Entry layout entry)
open ResCfg (Config)
open Spec (callsOf Current callFor Done lastMin)

theorem dropDone_eq : ∀ (d : ℕ) (l : List Name) (s : Name), l[d]? = some s →
    dropDone d l = if s = kHesse then (l, 0) else (l.drop d, d)
  | 0, l, s, _ => by
    unfold dropDone
    split <;> rfl
  | d + 1, l, s, h => by
    unfold dropDone
    rw [h]
    by_cases hs : s = kHesse
    · rw [if_pos (by rw [hs]), if_pos hs]
    · rw [if_neg (fun e => hs (Option.some.inj e)), if_neg hs,
        dropDone_eq d (l.drop 1) s (by rw [List.getElem?_drop, Nat.add_comm]; exact h), if_neg hs,
        List.drop_drop, Nat.add_comm 1 d]

theorem lastMin_le (l : List Name) : ∀ n, lastMin l n ≤ n
  | 0 => le_refl _
  | n + 1 => by
    unfold lastMin
    split
    · exact (lastMin_le l n).trans (Nat.le_succ n)
    · exact Nat.le_succ n

/-- invariant of the loop -/
structure Inv (cfg : Config) (mz : Minimizer) (L : List Name) (P0 : Params) (b0 : ℕ) (r : Run) : Prop where
  most : r.hist.length ≤ L.length
  steps : ∀ i c a, r.hist[i]? = some (c, a) → a = mz (r.hist.take i) c ∧ ∃ s P, L[i]? = some s ∧
    Current cfg.model P0 (r.hist.take i) P ∧ c = callFor cfg P s (b0 - callsOf (r.hist.take i))
  limit : ∀ i, 0 < i → i < r.hist.length → callsOf (r.hist.take i) < b0
  left : r.budget = b0 - callsOf r.hist
  values : Current cfg.model P0 r.hist r.fit.P
  errors : ∀ x, r.hist.getLast? = some x → ∀ j e, (layout cfg.model)[j]? = some e →
    entry r.err e = x.2.errors j
  cov : ∀ x, r.hist.getLast? = some x → r.cov = some x.2.cov
  removed : r.removed = lastMin L r.hist.length
  order : r.order = L.drop r.removed

theorem callsOf_snoc (h : List (Call × Res)) (x : Call × Res) : callsOf (h ++ [x]) = callsOf h + x.2.calls := by
  unfold callsOf
  rw [List.map_append, List.sum_append]
  simp

theorem current_snoc {M : Model} {P0 P : Params} {h : List (Call × Res)} {x : Call × Res}
    (hx : ∀ j e, (layout M)[j]? = some e → entry P e = x.2.X j) : Current M P0 (h ++ [x]) P := by
  unfold Current
  rw [List.getLast?_append]
  exact hx

/-- one step -/
noncomputable def stepRun (cfg : Config) (mz : Minimizer) (r : Run) (s : Name) : Run :=
  (ask cfg.model mz (callOf cfg r s) r).finish r.hist.length

theorem stepRun_inv {I : Input} {rc : ResFit.Cfg} {cfg : Config} (hM : ResFit.readModel I rc = some cfg.model)
    {mz : Minimizer} {L : List Name} {P0 : Params} {b0 : ℕ} {r : Run} (h : Inv cfg mz L P0 b0 r)
    (hp : r.hist ≠ [] → 0 < r.budget) {s : Name} (hs : L[r.hist.length]? = some s) :
    let r' := stepRun cfg mz r s
    r'.hist.length = r.hist.length + 1 ∧ r'.budget = r.budget ∧
      r'.calls = (mz r.hist (callOf cfg r s)).calls ∧
      Inv cfg mz L P0 b0 { r' with budget := b0 - callsOf r'.hist } ∧
      callsOf r'.hist = callsOf r.hist + r'.calls := by
  have hlt : r.hist.length < L.length := (List.getElem?_eq_some_iff.mp hs).1
  have hrem := lastMin_le L r.hist.length
  have hcall : callOf cfg r s = callFor cfg r.fit.P s (b0 - callsOf r.hist) := by
    unfold callOf callFor
    rw [h.left]
    rfl
  have hdd : dropDone (r.hist.length - r.removed) r.order
      = if s = kHesse then (r.order, 0) else (r.order.drop (r.hist.length - r.removed), r.hist.length - r.removed) :=
    dropDone_eq _ _ _ (by
      rw [h.order, List.getElem?_drop, Nat.add_sub_cancel' (by rw [h.removed]; exact hrem)]
      exact hs)
  refine ⟨?_, rfl, ?_, ?_, ?_⟩
  · show (r.hist ++ [_]).length = _
    rw [List.length_append]
    rfl
  · unfold Run.calls
    show (((r.hist ++ [(callOf cfg r s, mz r.hist (callOf cfg r s))]).getLast?).map _).getD 0 = _
    rw [List.getLast?_append]
    rfl
  · refine ⟨?_, ?_, ?_, rfl, ?_, ?_, ?_, ?_, ?_⟩
    · show (r.hist ++ [_]).length ≤ _
      rw [List.length_append]
      exact hlt
    · intro i c a hi
      have hi : (r.hist ++ [(callOf cfg r s, mz r.hist (callOf cfg r s))])[i]? = some (c, a) := hi
      show a = mz ((r.hist ++ [(callOf cfg r s, mz r.hist (callOf cfg r s))]).take i) c ∧ ∃ s' P, L[i]? = some s' ∧
        Current cfg.model P0 ((r.hist ++ [(callOf cfg r s, mz r.hist (callOf cfg r s))]).take i) P ∧
        c = callFor cfg P s' (b0 - callsOf ((r.hist ++ [(callOf cfg r s, mz r.hist (callOf cfg r s))]).take i))
      rcases Nat.lt_or_ge i r.hist.length with hil | hil
      · rw [List.getElem?_append_left hil] at hi
        rw [List.take_append_of_le_length (Nat.le_of_lt hil)]
        exact h.steps i c a hi
      · have hie : i = r.hist.length := by
          have := (List.getElem?_eq_some_iff.mp hi).1
          rw [List.length_append, List.length_singleton] at this
          omega
        subst hie
        rw [List.getElem?_append_right (le_refl _), Nat.sub_self] at hi
        cases hi
        rw [List.take_append_of_le_length (le_refl _), List.take_length]
        exact ⟨rfl, s, r.fit.P, hs, h.values, hcall⟩
    · intro i h0 hi
      have hi : i < (r.hist ++ [(callOf cfg r s, mz r.hist (callOf cfg r s))]).length := hi
      show callsOf ((r.hist ++ [(callOf cfg r s, mz r.hist (callOf cfg r s))]).take i) < b0
      rw [List.length_append, List.length_singleton] at hi
      rw [List.take_append_of_le_length (by omega)]
      rcases Nat.lt_or_ge i r.hist.length with hil | hil
      · exact h.limit i h0 hil
      · rw [List.take_of_length_le (by omega)]
        have := hp (fun e => by rw [e] at hil hi; simp at hi; omega)
        rw [h.left] at this
        omega
    · refine current_snoc fun j e hj => ?_
      exact ResFit.import_at hM _ _ j e hj
    · intro x hx j e hj
      have hx : (r.hist ++ [(callOf cfg r s, mz r.hist (callOf cfg r s))]).getLast? = some x := hx
      rw [List.getLast?_append] at hx
      cases hx
      exact ResFit.import_at hM _ _ j e hj
    · intro x hx
      have hx : (r.hist ++ [(callOf cfg r s, mz r.hist (callOf cfg r s))]).getLast? = some x := hx
      rw [List.getLast?_append] at hx
      cases hx
      rfl
    · show r.removed + (dropDone (r.hist.length - r.removed) r.order).2
        = lastMin L (r.hist ++ [(callOf cfg r s, mz r.hist (callOf cfg r s))]).length
      rw [List.length_append, List.length_singleton, hdd, lastMin, hs]
      by_cases hh : s = kHesse
      · rw [if_pos hh, if_pos (by rw [hh])]
        exact h.removed
      · rw [if_neg hh, if_neg (fun e => hh (Option.some.inj e))]
        dsimp only
        rw [h.removed]
        omega
    · show (dropDone (r.hist.length - r.removed) r.order).1
        = L.drop (r.removed + (dropDone (r.hist.length - r.removed) r.order).2)
      rw [hdd]
      by_cases hh : s = kHesse
      · rw [if_pos hh]
        exact h.order
      · rw [if_neg hh]
        dsimp only
        rw [h.order, List.drop_drop]
  · unfold Run.calls
    show callsOf (r.hist ++ [(callOf cfg r s, mz r.hist (callOf cfg r s))])
      = _ + (((r.hist ++ [(callOf cfg r s, mz r.hist (callOf cfg r s))]).getLast?).map _).getD 0
    rw [List.getLast?_append, callsOf_snoc]
    rfl

theorem loop_done {I : Input} {rc : ResFit.Cfg} {cfg : Config} (hM : ResFit.readModel I rc = some cfg.model)
    {mz : Minimizer} {L : List Name} {P0 : Params} {b0 : ℕ} (h0 : L[0]? ≠ some kHesse) :
    ∀ (n : ℕ) (r : Run), Inv cfg mz L P0 b0 r → (r.hist ≠ [] → 0 < r.budget) →
      r.hist.length + n = L.length → 0 < L.length →
      ∃ r', loop cfg mz n r.hist.length r = .ok r' ∧ Done cfg mz L P0 b0 r'
  | 0, r, h, hp, hn, hL => by
    have hne : r.hist ≠ [] := fun e => by rw [e] at hn; simp at hn; omega
    have hpos := hp hne
    refine ⟨r, rfl, ?_, h.most, h.steps, h.limit, h.left, fun _ => hn, h.values, h.errors, ?_, ?_⟩
    · exact List.length_pos_of_ne_nil hne
    · intro x hx
      rw [h.cov x hx, if_neg (Nat.ne_of_gt hpos)]
    · rw [h.order, h.removed]
  | n + 1, r, h, hp, hn, hL => by
    have hlt : r.hist.length < L.length := by omega
    obtain ⟨s, hs⟩ : ∃ s, L[r.hist.length]? = some s := ⟨_, List.getElem?_eq_getElem hlt⟩
    have hget : r.order[r.hist.length - r.removed]? = some s := by
      rw [h.order, List.getElem?_drop, Nat.add_sub_cancel' (by rw [h.removed]; exact lastMin_le L _)]
      exact hs
    obtain ⟨h1, h2, h3, h4, h5⟩ := stepRun_inv hM h hp hs
    unfold loop
    rw [hget]
    dsimp only
    rw [if_neg (fun e => h0 (by rw [← e.2, hs, e.1]))]
    show ∃ r', (if (stepRun cfg mz r s).calls ≥ (stepRun cfg mz r s).budget then
      Outcome.ok { stepRun cfg mz r s with budget := 0, cov := none }
      else loop cfg mz n (r.hist.length + 1) { stepRun cfg mz r s with
        budget := (stepRun cfg mz r s).budget - (stepRun cfg mz r s).calls }) = .ok r' ∧ _
    by_cases hc : (stepRun cfg mz r s).calls ≥ (stepRun cfg mz r s).budget
    · rw [if_pos hc]
      refine ⟨_, rfl, ?_, h4.most, h4.steps, h4.limit, ?_, fun e => absurd rfl e, h4.values, h4.errors, ?_, ?_⟩
      · show 0 < (stepRun cfg mz r s).hist.length
        rw [h1]
        exact Nat.succ_pos _
      · show 0 = b0 - callsOf (stepRun cfg mz r s).hist
        rw [h5]
        rw [h2, h.left] at hc
        omega
      · intro x _
        rw [if_pos rfl]
      · exact h4.order.trans (by rw [h4.removed])
    · rw [if_neg hc]
      rw [← h1]
      have hb : b0 - callsOf (stepRun cfg mz r s).hist
          = (stepRun cfg mz r s).budget - (stepRun cfg mz r s).calls := by
        rw [h5, h2, h.left]
        omega
      rw [hb] at h4
      exact loop_done hM h0 n _ h4 (fun _ => Nat.sub_pos_of_lt (Nat.lt_of_not_ge hc)) (by
        show (stepRun cfg mz r s).hist.length + n = _
        rw [h1]
        omega) hL

end Rpwa.ResMin

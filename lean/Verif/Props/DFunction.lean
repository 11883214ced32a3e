import Verif.Lemmas.DFunction
/-!
# C05: Wigner d-function and its cache

Specification: `Verif/Spec/DFunction.lean`. The full property ("the value does not depend on the history
of requests and cache switches") is *false* for the code: see the two witnesses at the end. Proved are the
histories for which it holds.
-/
namespace Rpwa.DFunction
open Finset

/-- The full property C05: after every history of requests and cache switches, a consistent request in
the supported range returns Wigner's value. -/
def HistoryIndependent : Prop :=
  ∀ (ops : List Op) (s : State), run init ops = some s →
    ∀ (j m n : ℤ) (θ : ℝ), Proj j m → Proj j n → j < 41 →
      ∃ s', call s j m n θ = .ok (wignerD j m n θ, s')

/-- A request whose projections are projections of the spin. -/
def Consistent : Op → Prop
  | .request j m n _ => Proj j m ∧ Proj j n
  | .setUseCache _ => False

/-- C05 (partial): after any history of consistent requests *without cache switches*, a consistent
request returns Wigner's value. Missing: histories with cache switches or inconsistent requests, for
which the claim is false (below). -/
theorem history_independent_partial (ops : List Op) (hops : ∀ o ∈ ops, Consistent o) (s : State)
    (h : run init ops = some s) (j m n : ℤ) (θ : ℝ) (hm : Proj j m) (hn : Proj j n) (hj : j < 41) :
    ∃ s', call s j m n θ = .ok (wignerD j m n θ, s') := by
  have key : ∀ (ops : List Op) (t s : State), (∀ o ∈ ops, Consistent o) → Inv t → t.useCache = true →
      run t ops = some s → Inv s ∧ s.useCache = true := by
    intro ops
    induction ops with
    | nil => intro t s _ hi hu hr; simp [run] at hr; rw [← hr]; exact ⟨hi, hu⟩
    | cons o os ih =>
      intro t s hc hi hu hr
      cases o with
      | setUseCache b => exact (hc _ (List.mem_cons_self ..)).elim
      | request j m n θ =>
        have hcons := hc _ (List.mem_cons_self ..)
        simp only [Consistent] at hcons
        by_cases hj : j < maxJ
        · obtain ⟨t', h1, h2, h3⟩ := call_on t hi hu j m n hcons.1 hcons.2 hj θ
          simp only [run, step, h1, Option.bind_some] at hr
          exact ih t' s (fun o ho => hc o (List.mem_cons_of_mem _ ho)) h2 h3 hr
        · have : call t j m n θ = .terminate := by
            unfold call; rw [if_pos (by omega)]
          simp [run, step, this] at hr
  obtain ⟨hi, hu⟩ := key ops init s hops inv_init rfl h
  obtain ⟨s', h1, _⟩ := call_on s hi hu j m n hm hn hj θ
  exact ⟨s', h1⟩

example : (∃ s, run init [.request 2 0 2 1, .request 1 1 (-1) (-1)] = some s) ∧
    Consistent (.request 2 0 2 1) ∧ Consistent (.request 1 1 (-1) (-1)) := by
  have c1 : Consistent (.request 2 0 2 1) := ⟨⟨1, by omega, by omega⟩, ⟨2, by omega, by omega⟩⟩
  have c2 : Consistent (.request 1 1 (-1) (-1)) := ⟨⟨1, by omega, by omega⟩, ⟨0, by omega, by omega⟩⟩
  obtain ⟨s1, h1, i1, u1⟩ := call_on init inv_init rfl 2 0 2 c1.1 c1.2 (by decide) 1
  obtain ⟨s2, h2, i2, u2⟩ := call_on s1 i1 u1 1 1 (-1) c2.1 c2.2 (by decide) (-1)
  exact ⟨⟨s2, by simp [run, step, h1, h2]⟩, c1, c2⟩

/-- C05: while caching is switched off, every consistent request in the supported range returns Wigner's
value, whatever happened before (any state). -/
theorem value_with_cache_off (s : State) (hu : s.useCache = false) (j m n : ℤ) (hm : Proj j m)
    (hn : Proj j n) (hj : j < 41) (θ : ℝ) : ∃ s', call s j m n θ = .ok (wignerD j m n θ, s') :=
  call_off s hu j m n hm hn hj θ

example : ({ init with useCache := false } : State).useCache = false ∧ Proj 3 1 ∧ Proj 3 (-3) :=
  ⟨rfl, ⟨2, by omega, by omega⟩, ⟨0, by omega, by omega⟩⟩

/-- C05: illegal arguments never return a value. -/
theorem illegal_arguments_terminate (s : State) (j m n : ℤ) (θ : ℝ)
    (h : 41 ≤ j ∨ j < 0 ∨ j < |m| ∨ j < |n|) : call s j m n θ = .terminate := by
  unfold call
  by_cases h1 : j ≥ maxJ
  · rw [if_pos h1]
  · rw [if_neg h1, if_pos]
    simp only [Bool.or_eq_true, decide_eq_true_eq, maxJ, Int.natCast_natAbs] at *
    omega

example : (41 : ℤ) ≤ 41 ∨ (41 : ℤ) < 0 ∨ (41 : ℤ) < |1| ∨ (41 : ℤ) < |1| := Or.inl le_rfl

private theorem half_half_entry : goodEntry 0 1 0 1 = ⟨-1, [⟨1, 0, -1⟩]⟩ := by
  simp [goodEntry, goodTerms, goodTerm]

/-- C05 is false: fill the cache, switch caching off, ask again, switch on, ask again. The third answer
for `d^{1/2}_{1/2 1/2}(0)` is `2`; the true value is `1`. -/
theorem not_historyIndependent_cache_switch :
    ∃ s, run init [.request 1 1 1 0, .setUseCache false, .request 1 1 1 0, .setUseCache true] = some s ∧
      (∃ s', call s 1 1 1 0 = .ok (2, s')) ∧ wignerD 1 1 1 0 = 1 := by
  have f0 : fact 0 = .ok 1 := by simp [fact]
  have f1 : fact 1 = .ok 1 := by simp [fact]
  have ct : constTerm 1 1 1 = .ok (-1) := by
    simp [constTerm, f0, f1, powMinusOne, bind, Outcome.bind, pure]
  have sm : summand 1 1 1 1 = .ok ⟨1, 0, -1⟩ := by
    simp [summand, f0, f1, powMinusOne, bind, Outcome.bind, pure]
  have ts : summands 1 1 1 1 1 1 = .ok [⟨1, 0, -1⟩] := by
    simp [summands, sm, bind, Outcome.bind, pure]
  let e1 : Entry := ⟨-1, [⟨1, 0, -1⟩]⟩
  let e2 : Entry := ⟨-1, [⟨1, 0, -1⟩, ⟨1, 0, -1⟩]⟩
  let s1 : State := ⟨true, fun x => if x = (1, 1, 1) then some e1 else none⟩
  have c1 : call init 1 1 1 0 = .ok (1, s1) := by
    simp [call, init, maxJ, ct, ts, bind, Outcome.bind, pure, sumTerm, s1, e1]
  have c2 : ∃ s2, call { s1 with useCache := false } 1 1 1 0 = .ok (1, s2) ∧ s2.mem (1, 1, 1) = some e2 := by
    refine ⟨⟨false, fun x => if x = (1, 1, 1) then some e2 else s1.mem x⟩, ?_, by simp⟩
    simp [call, maxJ, ct, ts, bind, Outcome.bind, pure, sumTerm, s1, e1, e2]
  obtain ⟨s2, c2, hm⟩ := c2
  refine ⟨{ s2 with useCache := true }, by simp [run, step, c1, c2], ?_, ?_⟩
  · refine ⟨{ s2 with useCache := true }, ?_⟩
    simp [call, maxJ, hm, e2, sumTerm]; norm_num
  · have := entryVal_eq 0 1 0 1 rfl 0
    rw [half_half_entry] at this
    simp only [Nat.cast_zero, Nat.cast_one, zero_add, sub_zero] at this
    rw [← this]
    simp [entryVal, sumTerm]

theorem not_historyIndependent : ¬ HistoryIndependent := by
  intro h
  obtain ⟨s, hr, ⟨s', hc⟩, hw⟩ := not_historyIndependent_cache_switch
  obtain ⟨s'', hc'⟩ := h _ s hr 1 1 1 0 ⟨1, by omega, by omega⟩ ⟨1, by omega, by omega⟩ (by decide)
  rw [hc, hw] at hc'
  simp at hc'

/-- C05 is also false without any switch when an *inconsistent* request (spin 1 with projections 1/2,
which the argument checks accept) precedes: it is cached under the cell of `d^1_{00}`, so the next
request for `d^1_{00}(0)` returns `0` instead of `1`. -/
theorem inconsistent_request_poisons_cache :
    ∃ s, run init [.request 2 1 1 0] = some s ∧
      (∃ s', call s 2 0 0 0 = .ok (0, s')) ∧ ∃ s', call init 2 0 0 0 = .ok (1, s') := by
  have f0 : fact 0 = .ok 1 := by simp [fact]
  have f1 : fact 1 = .ok 1 := by simp [fact]
  have t3 : Int.tdiv 3 2 = 1 := by decide
  have t1 : Int.tdiv 1 2 = 0 := by decide
  have ct : constTerm 2 1 1 = .ok (-1) := by
    norm_num [constTerm, f0, f1, powMinusOne, bind, Outcome.bind, pure, t3, t1]
  have sm : summand 2 1 1 1 = .ok ⟨1, 1, -1⟩ := by
    norm_num [summand, f0, f1, powMinusOne, bind, Outcome.bind, pure, t3]
  have ts : summands 2 1 1 1 1 1 = .ok [⟨1, 1, -1⟩] := by
    simp [summands, sm, bind, Outcome.bind, pure]
  have ct' : constTerm 2 0 0 = .ok (-1) := by
    simp [constTerm, f1, powMinusOne, bind, Outcome.bind, pure]
  have sm0 : summand 2 0 0 0 = .ok ⟨0, 2, 1⟩ := by
    simp [summand, f0, f1, powMinusOne, bind, Outcome.bind, pure]
  have sm1 : summand 2 0 0 1 = .ok ⟨2, 0, -1⟩ := by
    simp [summand, f0, f1, powMinusOne, bind, Outcome.bind, pure]
  have ts' : summands 2 0 0 1 2 0 = .ok [⟨0, 2, 1⟩, ⟨2, 0, -1⟩] := by
    simp [summands, sm0, sm1, bind, Outcome.bind, pure]
  let e1 : Entry := ⟨-1, [⟨1, 1, -1⟩]⟩
  let s1 : State := ⟨true, fun x => if x = (2, 1, 1) then some e1 else none⟩
  have c1 : call init 2 1 1 0 = .ok (0, s1) := by
    norm_num [call, init, maxJ, ct, ts, bind, Outcome.bind, pure, sumTerm, s1, e1, t3]
  refine ⟨s1, by simp [run, step, c1], ⟨s1, ?_⟩, ?_⟩
  · simp [call, maxJ, s1, e1, sumTerm]
  · refine ⟨⟨true, fun x => if x = (2, 1, 1) then some ⟨-1, [⟨0, 2, 1⟩, ⟨2, 0, -1⟩]⟩ else none⟩, ?_⟩
    simp [call, init, maxJ, ct', ts', bind, Outcome.bind, pure, sumTerm]

end Rpwa.DFunction

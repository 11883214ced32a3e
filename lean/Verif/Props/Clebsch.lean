import Verif.Lemmas.Clebsch
/-!
# C03, C04: Clebsch-Gordan coefficients and their cache

Specification: `Verif/Spec/Clebsch.lean` (selection rules and Racah's formula).
-/
namespace Rpwa.Clebsch

/-- C03: after any history of requests and cache switches, a request either terminates (caching on and
a spin above the supported maximum) or returns Racah's value; it never reads or writes outside the
cache array (`ub`), and never asks for a negative factorial. -/
theorem request_after_any_history (ops : List Op) (s : State) (h : run init ops = some s)
    (j1 m1 j2 m2 J M : ℤ) :
    (s.useCache = true ∧ (18 ≤ j1 ∨ 18 ≤ j2 ∨ 18 ≤ J) ∧ call s j1 m1 j2 m2 J M = .terminate) ∨
    (¬ (s.useCache = true ∧ (18 ≤ j1 ∨ 18 ≤ j2 ∨ 18 ≤ J)) ∧
      ∃ s', call s j1 m1 j2 m2 J M = .ok (racah j1 m1 j2 m2 J M, s')) := by
  rcases call_spec s (inv_run ops init s inv_init h) j1 m1 j2 m2 J M with hh | ⟨h1, s', h2, _⟩
  · exact Or.inl hh
  · exact Or.inr ⟨h1, s', h2⟩

/-- Non-vacuity: a history with a (zero-valued, hence returning) request, a switch and another request. -/
example : ∃ s, run init [.request 2 0 2 0 2 2, .setUseCache false, .request 2 2 2 2 3 3] = some s := by
  have e1 : call init 2 0 2 0 2 2 = .ok (0, init) := by
    simp [call, init, maxJ, Spin.spinAndProjAreCompatible, Spin.spinStatesCanCouple, Spin.getSpinRange,
      isEven, isOdd]
  have e2 : call { init with useCache := false } 2 2 2 2 3 3 =
      .ok (0, { init with useCache := false }) := by
    simp [call, init, maxJ, Spin.spinAndProjAreCompatible, Spin.spinStatesCanCouple, Spin.getSpinRange,
      isEven, isOdd]
  simp [run, step, e1, e2]

/-- C03: two cacheable requests use the same cell of the array only if they are the same request, and
each cell is inside the array. -/
theorem cache_cells_distinct {j1 m1 j2 m2 J M j1' m1' j2' m2' J' M' : ℤ}
    (h : Selected j1 m1 j2 m2 J M) (h' : Selected j1' m1' j2' m2' J' M')
    (b : j1 < 18 ∧ j2 < 18 ∧ J < 18) (b' : j1' < 18 ∧ j2' < 18 ∧ J' < 18) :
    (0 ≤ addr j1 m1 j2 m2 J ∧ addr j1 m1 j2 m2 J < 18 * 35 * 18 * 35 * 36) ∧
    (addr j1 m1 j2 m2 J = addr j1' m1' j2' m2' J' →
      (j1, m1, j2, m2, J, M) = (j1', m1', j2', m2', J', M')) := by
  have hb := selected_bounds h
  have hb' := selected_bounds h'
  refine ⟨addr_bounds hb.1 b.1 hb.2.1 hb.2.2.1 b.2.1 hb.2.2.2.1 hb.2.2.2.2 b.2.2, fun e => ?_⟩
  obtain ⟨rfl, rfl, rfl, rfl, rfl⟩ := addr_inj hb.1 b.1 hb.2.1 hb.2.2.1 b.2.1 hb.2.2.2.1 hb.2.2.2.2 b.2.2
    hb'.1 b'.1 hb'.2.1 hb'.2.2.1 b'.2.1 hb'.2.2.2.1 hb'.2.2.2.2 b'.2.2 e
  have e1 : m1 + m2 = M := h.2.2.2.1
  have e2 : m1 + m2 = M' := h'.2.2.2.1
  rw [← e1, ← e2]

example : Selected 2 0 2 (-2) 4 (-2) ∧ (2 : ℤ) < 18 := by
  refine ⟨?_, by decide⟩
  have := coords_selected 1 1 2 0 0 (by decide) (by decide) (by decide) (by decide)
  simpa using this

/-- C04: violated selection rules give exactly zero (or a termination), in every reachable state. -/
theorem selection_rules (ops : List Op) (s : State) (h : run init ops = some s)
    (j1 m1 j2 m2 J M : ℤ) (hns : ¬ Selected j1 m1 j2 m2 J M) (v : ℝ) (s' : State)
    (hc : call s j1 m1 j2 m2 J M = .ok (v, s')) : v = 0 := by
  rcases request_after_any_history ops s h j1 m1 j2 m2 J M with ⟨_, _, ht⟩ | ⟨_, t, ht⟩
  · rw [ht] at hc; simp at hc
  · rw [ht] at hc
    simp only [Outcome.ok.injEq, Prod.mk.injEq] at hc
    rw [← hc.1, racah, if_neg hns]

example : ¬ Selected 2 0 2 0 2 2 ∧ ∃ s', call init 2 0 2 0 2 2 = .ok (0, s') := by
  refine ⟨?_, init, ?_⟩
  · rintro ⟨-, -, -, h, -⟩; omega
  · simp [call, init, maxJ, Spin.spinAndProjAreCompatible, Spin.spinStatesCanCouple, Spin.getSpinRange,
      isEven, isOdd]

end Rpwa.Clebsch

import Mathlib.Data.Nat.Factorial.Basic
import Verif.Model.Factorial
/-!
# C06: cached factorial

Specification: Mathlib's `Nat.factorial`.
-/
namespace Rpwa.Factorial
open Nat

private def Good (mx : Nat) (c : List Nat) : Prop :=
  0 < c.length ∧ ∀ i, i < c.length → c[i]? = some i.factorial ∧ i.factorial ≤ mx

private theorem fill_spec (mx : Nat) (k : Nat) (c : List Nat) (hc : Good mx c) :
    ((c.length + k - 1).factorial ≤ mx →
      ∃ c', fill mx k c = .ok c' ∧ Good mx c' ∧ c'.length = c.length + k) ∧
    (mx < (c.length + k - 1).factorial → fill mx k c = .terminate) := by
  induction k generalizing c with
  | zero =>
    obtain ⟨h0, h⟩ := hc
    refine ⟨fun _ => ⟨c, rfl, ⟨h0, h⟩, rfl⟩, fun hlt => ?_⟩
    have := (h (c.length - 1) (by omega)).2
    simp only [Nat.add_zero] at hlt
    omega
  | succ k ih =>
    obtain ⟨h0, h⟩ := hc
    have hp := h (c.length - 1) (by omega)
    have hfac : c.length.factorial = c.length * (c.length - 1).factorial := by
      obtain ⟨m, hm⟩ : ∃ m, c.length = m + 1 := ⟨c.length - 1, by omega⟩
      rw [hm]; simp [Nat.factorial_succ]
    have hdiv : mx / c.length < (c.length - 1).factorial ↔ mx < c.length.factorial := by
      rw [hfac, Nat.div_lt_iff_lt_mul h0, Nat.mul_comm]
    unfold fill
    simp only [hp.1]
    by_cases hov : mx < c.length.factorial
    · rw [if_pos (hdiv.2 hov)]
      refine ⟨fun hle => ?_, fun _ => rfl⟩
      have : c.length.factorial ≤ (c.length + (k + 1) - 1).factorial :=
        Nat.factorial_le (by omega)
      omega
    · rw [if_neg (fun hh => hov (hdiv.1 hh))]
      have hg : Good mx (c ++ [c.length * (c.length - 1).factorial]) := by
        refine ⟨by simp, fun i hi => ?_⟩
        simp only [List.length_append, List.length_singleton] at hi
        by_cases hi' : i < c.length
        · rw [List.getElem?_append_left hi']; exact h i hi'
        · have : i = c.length := by omega
          subst this
          rw [List.getElem?_append_right (le_refl _)]
          simp [← hfac]; omega
      have := ih _ hg
      simp only [List.length_append, List.length_singleton] at this
      have e : c.length + 1 + k - 1 = c.length + (k + 1) - 1 := by omega
      rw [e] at this
      refine ⟨fun hle => ?_, this.2⟩
      obtain ⟨c', hc', hg', hl⟩ := this.1 hle
      exact ⟨c', hc', hg', by omega⟩

private theorem call_spec (mx : Nat) (c : List Nat) (hc : Good mx c) (n : Nat) :
    (n.factorial ≤ mx → ∃ c', call mx c n = .ok (n.factorial, c') ∧ Good mx c') ∧
    (mx < n.factorial → call mx c n = .terminate) := by
  unfold call
  by_cases hn : n ≥ c.length
  · simp only [hn, if_true]
    have hs := fill_spec mx (n + 1 - c.length) c hc
    have e : c.length + (n + 1 - c.length) - 1 = n := by omega
    rw [e] at hs
    refine ⟨fun h => ?_, fun h => by rw [hs.2 h]⟩
    obtain ⟨c', h1, h2, h3⟩ := hs.1 h
    rw [h1]
    have := (h2.2 n (by omega)).1
    simp only [this]
    exact ⟨c', rfl, h2⟩
  · simp only [hn, if_false]
    have := hc.2 n (by omega)
    rw [this.1]
    exact ⟨fun _ => ⟨c, rfl, hc⟩, fun h => by omega⟩

private theorem run_good (mx : Nat) (ns : List Nat) (c c' : List Nat) (hc : Good mx c)
    (h : run mx c ns = some c') : Good mx c' := by
  induction ns generalizing c with
  | nil => simp [run] at h; rw [← h]; exact hc
  | cons n ns ih =>
    simp only [run] at h
    rcases Nat.lt_or_ge mx n.factorial with hov | hov
    · rw [(call_spec mx c hc n).2 hov] at h; simp at h
    · obtain ⟨c'', h1, h2⟩ := (call_spec mx c hc n).1 hov
      rw [h1] at h
      exact ih c'' h2 h

/-- C06: whatever was requested before, a request for `n` returns exactly `n!` if it fits into the
type and otherwise does not return (in particular never a wrapped value and never out-of-bounds). -/
theorem factorial_after_any_history (mx : Nat) (hmx : 1 ≤ mx) (ns : List Nat) (cache : List Nat)
    (h : run mx init ns = some cache) (n : Nat) :
    (n.factorial ≤ mx → ∃ cache', call mx cache n = .ok (n.factorial, cache')) ∧
    (mx < n.factorial → call mx cache n = .terminate) := by
  have hg : Good mx init := by
    refine ⟨by simp [init], fun i hi => ?_⟩
    have : i = 0 := by simp [init] at hi; exact hi
    subst this; simp [init]; exact hmx
  have hs := call_spec mx cache (run_good mx ns init cache hg h) n
  exact ⟨fun h => by obtain ⟨c', h1, _⟩ := hs.1 h; exact ⟨c', h1⟩, hs.2⟩

/-- Non-vacuity: a history on an 8-bit type that returns and a request after it that aborts. -/
example : (∃ c, run 255 init [3, 0, 5, 2] = some c) ∧
    (call 255 init 5 = .ok (120, [1, 1, 2, 6, 24, 120])) ∧ call 255 [1, 1, 2] 6 = .terminate := by
  refine ⟨⟨_, rfl⟩, by decide, by decide⟩

end Rpwa.Factorial

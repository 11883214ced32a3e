import Mathlib.Algebra.BigOperators.Intervals
import Mathlib.Data.Nat.Choose.Basic
import Mathlib.Tactic.Ring
/-! Pascal sums, finite differences and their Leibniz rule; used for the Clebsch-Gordan sum. -/
namespace Rpwa.Leibniz
open Finset

variable {R : Type*} [CommRing R]

theorem pascal_sum (n : ℕ) (h : ℕ → R) :
    ∑ i ∈ range (n + 2), ((n + 1).choose i : R) * h i =
      ∑ i ∈ range (n + 1), (n.choose i : R) * (h i + h (i + 1)) := by
  rw [sum_range_succ']
  have h1 : ∀ i, ((n + 1).choose (i + 1) : R) * h (i + 1) =
      (n.choose i : R) * h (i + 1) + (n.choose (i + 1) : R) * h (i + 1) := by
    intro i; rw [Nat.choose_succ_succ]; push_cast; ring
  simp only [h1, mul_add, sum_add_distrib]
  have h2 : ∑ i ∈ range (n + 1), (n.choose (i + 1) : R) * h (i + 1) + (n.choose 0 : R) * h 0 =
      ∑ i ∈ range (n + 1), (n.choose i : R) * h i := by
    rw [← sum_range_succ' (fun i => (n.choose i : R) * h i) (n + 1), sum_range_succ]
    simp
  simp only [Nat.choose_zero_right] at h2 ⊢
  rw [← h2]; ring

/-- backward-looking difference `f x - f (x+1)`. -/
def D (f : ℕ → R) : ℕ → R := fun x => f x - f (x + 1)

/-- alternating binomial sum. -/
def alt (n : ℕ) (F : ℕ → R) : R := ∑ i ∈ range (n + 1), (n.choose i : R) * ((-1) ^ i * F i)

theorem alt_succ (n : ℕ) (F : ℕ → R) : alt (n + 1) F = alt n F - alt n (fun x => F (x + 1)) := by
  unfold alt
  rw [pascal_sum, ← sum_sub_distrib]
  refine sum_congr rfl fun i _ => ?_
  rw [pow_succ]; ring

theorem D_iter_shift (n : ℕ) (f : ℕ → R) (x : ℕ) :
    (D^[n] (fun y => f (y + 1))) x = (D^[n] f) (x + 1) := by
  induction n generalizing f x with
  | zero => rfl
  | succ n ih => 
    simp only [Function.iterate_succ, Function.comp]
    rw [← ih (D f) x]; rfl

theorem D_iter_succ_apply (n : ℕ) (f : ℕ → R) (x : ℕ) :
    (D^[n + 1] f) x = (D^[n] f) x - (D^[n] f) (x + 1) := by
  rw [Function.iterate_succ', Function.comp]; rfl

theorem alt_mul (n : ℕ) (f g : ℕ → R) :
    alt n (fun x => f x * g x) =
      ∑ i ∈ range (n + 1), (n.choose i : R) * ((D^[i] f) 0 * (D^[n - i] g) i) := by
  induction n generalizing f g with
  | zero => simp [alt]
  | succ n ih =>
    rw [alt_succ, ih f g, ih (fun x => f (x + 1)) (fun x => g (x + 1)), pascal_sum, ← sum_sub_distrib]
    refine sum_congr rfl fun i hi => ?_
    have hi' : i ≤ n := by simpa [Nat.lt_succ_iff] using hi
    rw [D_iter_shift, D_iter_shift, D_iter_succ_apply i]
    have e1 : n + 1 - i = (n - i) + 1 := by omega
    have e2 : n + 1 - (i + 1) = n - i := by omega
    rw [e1, e2, D_iter_succ_apply (n - i)]
    simp only [zero_add]
    ring

/-- differences of `x ↦ C(a + x, b)`. -/
theorem D_choose_add (a : ℕ) (i b x : ℕ) :
    (D^[i] (fun y => ((a + y).choose b : R))) x =
      if i ≤ b then (-1) ^ i * ((a + x).choose (b - i) : R) else 0 := by
  induction i generalizing x with
  | zero => simp
  | succ i ih =>
    rw [D_iter_succ_apply, ih, ih]
    by_cases h : i + 1 ≤ b
    · have hi : i ≤ b := by omega
      simp only [h, hi, if_true]
      obtain ⟨c, rfl⟩ : ∃ c, b = c + (i + 1) := ⟨b - (i + 1), by omega⟩
      have e1 : c + (i + 1) - i = c + 1 := by omega
      have e2 : c + (i + 1) - (i + 1) = c := by omega
      rw [e1, e2, ← Nat.add_assoc, Nat.choose_succ_succ (a + x) c]
      push_cast; rw [pow_succ]; ring
    · simp only [h, if_false]
      by_cases hi : i ≤ b
      · have : b - i = 0 := by omega
        simp [this]
      · simp [hi]

/-- differences of `x ↦ C(A - x, b)` as long as `x + j ≤ A`. -/
theorem D_choose_sub (A : ℕ) (j b x : ℕ) (h : x + j ≤ A) :
    (D^[j] (fun y => ((A - y).choose b : R))) x =
      if j ≤ b then ((A - x - j).choose (b - j) : R) else 0 := by
  induction j generalizing x with
  | zero => simp
  | succ j ih =>
    rw [D_iter_succ_apply, ih x (by omega), ih (x + 1) (by omega)]
    by_cases hj : j + 1 ≤ b
    · have hi : j ≤ b := by omega
      simp only [hj, hi, if_true]
      obtain ⟨c, rfl⟩ : ∃ c, b = c + (j + 1) := ⟨b - (j + 1), by omega⟩
      have e1 : c + (j + 1) - j = c + 1 := by omega
      have e2 : c + (j + 1) - (j + 1) = c := by omega
      have e3 : A - x - j = (A - x - (j + 1)) + 1 := by omega
      have e4 : A - (x + 1) - j = A - x - (j + 1) := by omega
      rw [e1, e2, e4, e3, Nat.choose_succ_succ]
      push_cast; ring
    · simp only [hj, if_false]
      by_cases hi : j ≤ b
      · have : b - j = 0 := by omega
        simp [this]
      · simp [hi]

/-- The summation identity behind the equality of Wigner's and Racah's formulas. -/
theorem wigner_racah_sum (n A α a β : ℕ) (hA : n ≤ A) :
    (∑ i ∈ range (n + 1), (n.choose i : R) * ((-1) ^ i * (((a + i).choose β : R) * ((A - i).choose α : R)))) =
      ∑ i ∈ range (n + 1), (n.choose i : R) *
        ((if i ≤ β then (-1) ^ i * (a.choose (β - i) : R) else 0) *
         (if n - i ≤ α then ((A - n).choose (α - (n - i)) : R) else 0)) := by
  have := alt_mul n (fun y => ((a + y).choose β : R)) (fun y => ((A - y).choose α : R))
  unfold alt at this
  rw [this]
  refine sum_congr rfl fun i hi => ?_
  have hi' : i ≤ n := by simpa [Nat.lt_succ_iff] using hi
  rw [D_choose_add, D_choose_sub A (n - i) α i (by omega)]
  have : A - i - (n - i) = A - n := by omega
  rw [this]; simp

end Rpwa.Leibniz

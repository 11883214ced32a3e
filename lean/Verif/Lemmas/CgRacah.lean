import Verif.Lemmas.CgNorm
import Verif.Spec.Clebsch
/-!
# The table in terms of Racah's formula
-/
namespace Rpwa.CgBox
open Finset Fraction Clebsch

variable {n1 n2 a : ℕ}

theorem hfac_fc (n m : ℤ) (h : n = 2 * m) : hfac n = (fc m : ℝ) := by
  unfold hfac fc
  rw [h, show (2 * m) / 2 = m by omega]
  push_cast; rfl

theorem rfac_rf (n k m : ℤ) (h : n = 2 * (m - k)) : rfac n k = (rf m : ℝ) := by
  unfold rfac rf
  rw [h, show (2 * (m - k)) / 2 + k = m by omega]
  by_cases hm : m < 0
  · rw [if_pos hm, if_pos hm]; simp
  · rw [if_neg hm, if_neg hm]; push_cast; rfl

/-- Racah's formula in the coordinates of the table. -/
theorem racah_cell (h1 : a ≤ n1) (h2 : a ≤ n2) (p q : ℕ) (hp : p ≤ n1) (hq : q ≤ n2) :
    racah n1 (2 * p - n1) n2 (2 * q - n2) (n1 + n2 - 2 * a) (2 * p + 2 * q - n1 - n2) =
      Real.sqrt (Dl n1 n2 a : ℝ) * Real.sqrt (Pf n1 n2 a p q : ℝ) * (gs n1 n2 a p q : ℝ) := by
  unfold racah
  by_cases hs : a ≤ p + q ∧ p + q + a ≤ n1 + n2
  · rw [if_pos]
    · congr 1
      · congr 1
        · congr 1
          rw [hfac_fc _ (n1 - a) (by ring), hfac_fc _ (n2 - a) (by ring), hfac_fc _ a (by ring),
            hfac_fc _ (n1 + n2 - a + 1) (by ring)]
          unfold Dl; push_cast; ring
        · congr 1
          rw [hfac_fc _ (p + q - a) (by ring), hfac_fc _ (n1 + n2 - a - p - q) (by ring), hfac_fc _ (n1 - p) (by ring),
            hfac_fc _ p (by ring), hfac_fc _ (n2 - q) (by ring), hfac_fc _ q (by ring)]
          unfold Pf Wt; push_cast; ring
      · unfold gs
        push_cast
        rw [show ((n1 : ℤ) + n2 - (n1 + n2 - 2 * a)).toNat / 2 + 1 = a + 1 by omega]
        refine sum_congr rfl fun k _ => ?_
        unfold tm
        rw [rfac_rf 0 k k (by ring), rfac_rf _ (-k) (a - k) (by ring), rfac_rf _ (-k) (n1 - p - k) (by ring),
          rfac_rf _ (-k) (q - k) (by ring), rfac_rf _ k (p - a + k) (by ring), rfac_rf _ k (n2 - a - q + k) (by ring)]
        push_cast; ring
    · refine ⟨⟨p, by ring, by exact_mod_cast hp⟩, ⟨q, by ring, by exact_mod_cast hq⟩, ⟨p + q - a, ?_, ?_⟩, by ring,
        by omega, by omega, by omega, a, by ring⟩ <;> omega
  · rw [if_neg, gs_zero _ _ (by omega)]
    · simp
    · rintro ⟨-, -, ⟨k, hk, hk'⟩, -⟩
      omega

theorem Cv_racah (h1 : a ≤ n1) (h2 : a ≤ n2) (p q : ℕ) (hp : p ≤ n1) (hq : q ≤ n2) :
    (Cv n1 n2 a p q : ℝ) =
      racah n1 (2 * p - n1) n2 (2 * q - n2) (n1 + n2 - 2 * a) (2 * p + 2 * q - n1 - n2) *
      |racah n1 (2 * p - n1) n2 (2 * q - n2) (n1 + n2 - 2 * a) (2 * p + 2 * q - n1 - n2)| := by
  rw [racah_cell h1 h2 p q hp hq]
  have d : (0 : ℝ) ≤ Dl n1 n2 a := by exact_mod_cast (Dl_pos h1 h2).le
  have f : (0 : ℝ) ≤ Pf n1 n2 a p q := by exact_mod_cast (Pf_pos n1 n2 a p q).le
  rw [abs_mul, abs_mul, abs_of_nonneg (Real.sqrt_nonneg _), abs_of_nonneg (Real.sqrt_nonneg _)]
  have e1 := Real.mul_self_sqrt d
  have e2 := Real.mul_self_sqrt f
  unfold Cv ssq
  push_cast
  linear_combination (-(gs n1 n2 a p q : ℝ) * |(gs n1 n2 a p q : ℝ)| * (Pf n1 n2 a p q)) * e1 -
    ((gs n1 n2 a p q : ℝ) * |(gs n1 n2 a p q : ℝ)| * (Real.sqrt (Dl n1 n2 a : ℝ)) * (Real.sqrt (Dl n1 n2 a : ℝ))) * e2

/-- the squares of a column add up to one -/
theorem racah_norm (h1 : a ≤ n1) (h2 : a ≤ n2) (s : ℕ) (hs : a ≤ s) (hs' : s + a ≤ n1 + n2) :
    ∑ p ∈ range (n1 + 1), ∑ q ∈ range (n2 + 1), (if p + q = s then
      racah n1 (2 * p - n1) n2 (2 * q - n2) (n1 + n2 - 2 * a) (2 * p + 2 * q - n1 - n2) ^ 2 else 0) = 1 := by
  have hn := norm_all h1 h2 s hs hs'
  have key : ∑ p ∈ range (n1 + 1), ∑ q ∈ range (n2 + 1), (if p + q = s then gs n1 n2 a p q ^ 2 * Pf n1 n2 a p q * Dl n1 n2 a else 0) = 1 := by
    rw [← sum_cells (n1 + 1) n2 (fun p q => if p + q = s then gs n1 n2 a p q ^ 2 * Pf n1 n2 a p q * Dl n1 n2 a else 0),
      sum_diag (fun p q => gs n1 n2 a p q ^ 2 * Pf n1 n2 a p q * Dl n1 n2 a) s (fun p q h => by rw [gs_zero _ _ (by omega)]; ring)]
    have e : ∀ x ∈ antidiagonal s, gs n1 n2 a x.1 x.2 ^ 2 * Pf n1 n2 a x.1 x.2 * Dl n1 n2 a =
        (Wt n1 n2 x.1 x.2 * gs n1 n2 a x.1 x.2 ^ 2) * (fc (s - a) * fc (n1 + n2 - a - s) * Dl n1 n2 a) := by
      intro x hx
      have hx' : x.1 + x.2 = s := by simpa using hx
      unfold Pf
      rw [show (x.1 : ℤ) + x.2 - a = s - a by omega, show (n1 : ℤ) + n2 - a - x.1 - x.2 = n1 + n2 - a - s by omega]
      ring
    rw [sum_congr rfl e, ← sum_mul]
    change Sq n1 n2 a s * _ = 1
    unfold Dl
    rw [mul_div_assoc', mul_div_assoc', div_eq_one_iff_eq (fc_ne _), ← hn]
    ring
  have key' := congrArg (fun x : ℚ => (x : ℝ)) key
  simp only [Rat.cast_sum, Rat.cast_one] at key'
  rw [← key']
  refine sum_congr rfl fun p hp => sum_congr rfl fun q hq => ?_
  have hp' : p ≤ n1 := by simpa [Nat.lt_succ_iff] using hp
  have hq' : q ≤ n2 := by simpa [Nat.lt_succ_iff] using hq
  by_cases hc : p + q = s
  · rw [if_pos hc, if_pos hc, racah_cell h1 h2 p q hp' hq', mul_pow, mul_pow,
      Real.sq_sqrt (by exact_mod_cast (Dl_pos h1 h2).le), Real.sq_sqrt (by exact_mod_cast (Pf_pos n1 n2 a p q).le)]
    push_cast; ring
  · rw [if_neg hc, if_neg hc]; simp

end Rpwa.CgBox

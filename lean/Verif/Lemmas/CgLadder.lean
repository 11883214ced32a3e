import Mathlib.Data.Nat.Factorial.Basic
import Mathlib.Algebra.BigOperators.NatAntidiagonal
import Mathlib.RingTheory.PowerSeries.WellKnown
import Mathlib.Algebra.Order.Field.Rat
import Mathlib.Algebra.BigOperators.Field
import Mathlib.Data.Nat.Choose.Cast
import Mathlib.Tactic.Ring
import Mathlib.Tactic.LinearCombination
import Mathlib.Tactic.FieldSimp
import Mathlib.Tactic.Linarith
/-!
# Ladder relations and norm of Racah's alternating sum

Coordinates: `n1 = 2 j1`, `n2 = 2 j2`, `a = j1 + j2 - j`, `p = j1 + m1`, `q = j2 + m2`.
-/
namespace Rpwa.CgBox
open Finset

/-- `1/n!`, zero for negative `n`. -/
def rf (n : ℤ) : ℚ := if n < 0 then 0 else 1 / (n.toNat.factorial : ℚ)

/-- `n!` of a non-negative integer. -/
def fc (n : ℤ) : ℚ := (n.toNat.factorial : ℚ)

theorem fc_ne (n : ℤ) : fc n ≠ 0 := by
  unfold fc; exact_mod_cast n.toNat.factorial_ne_zero
theorem fc_pos (n : ℤ) : 0 < fc n := by
  unfold fc; exact_mod_cast n.toNat.factorial_pos

theorem fc_succ {n : ℤ} (h : 0 ≤ n) : fc (n + 1) = (n + 1) * fc n := by
  obtain ⟨k, rfl⟩ := Int.eq_ofNat_of_zero_le h
  unfold fc
  have e : ((k : ℤ) + 1).toNat = k + 1 := by omega
  rw [e]; simp [Nat.factorial_succ]

theorem rf_neg {n : ℤ} (h : n < 0) : rf n = 0 := by unfold rf; rw [if_pos h]
theorem rf_nonneg {n : ℤ} (h : 0 ≤ n) : rf n = 1 / fc n := by unfold rf; rw [if_neg (by omega)]; rfl
theorem rf_zero : rf 0 = 1 := by rw [rf_nonneg le_rfl]; simp [fc]

/-- the only property of inverse factorials that is used. -/
theorem rf_rec (n : ℤ) : (n : ℚ) * rf n = rf (n - 1) := by
  rcases lt_trichotomy n 0 with h | h | h
  · rw [rf_neg h, rf_neg (by omega)]; simp
  · subst h; rw [rf_neg (by omega : (0 : ℤ) - 1 < 0)]; simp
  · rw [rf_nonneg h.le, rf_nonneg (by omega)]
    have := fc_succ (n := n - 1) (by omega)
    rw [show n - 1 + 1 = n by ring] at this
    rw [this]
    have h0 := fc_ne (n - 1)
    have h1 : (n : ℚ) ≠ 0 := by exact_mod_cast h.ne'
    have e : ((n - 1 : ℤ) : ℚ) + 1 = n := by push_cast; ring
    rw [e]
    field_simp

theorem rf_rec' (n : ℤ) (m : ℤ) (h : n - 1 = m) : (n : ℚ) * rf n = rf m := by rw [← h]; exact rf_rec n

/-- a summand of Racah's sum. -/
def tm (n1 n2 a : ℕ) (p q k : ℤ) : ℚ :=
  rf k * rf (a - k) * rf (n1 - p - k) * rf (q - k) * rf (p - a + k) * rf (n2 - a - q + k)

/-- Racah's alternating sum. -/
def gs (n1 n2 a : ℕ) (p q : ℤ) : ℚ := ∑ k ∈ range (a + 1), (-1) ^ k * tm n1 n2 a p q k

variable {n1 n2 a : ℕ}

/-- telescoping: an alternating sum of `f k + f (k-1)` where `f` vanishes at `-1` and `a`. -/
theorem alt_telescope (f : ℤ → ℚ) (h0 : f (-1) = 0) (a : ℕ) (ha : f a = 0) :
    ∑ k ∈ range (a + 1), (-1 : ℚ) ^ k * (f k + f ((k : ℤ) - 1)) = 0 := by
  have : ∀ n : ℕ, ∑ k ∈ range n, (-1 : ℚ) ^ k * (f k + f ((k : ℤ) - 1)) = -((-1) ^ n * f ((n : ℤ) - 1)) := by
    intro n
    induction n with
    | zero => simp [h0]
    | succ n ih =>
      rw [sum_range_succ, ih]
      have e : ((n + 1 : ℕ) : ℤ) - 1 = n := by push_cast; ring
      rw [e, pow_succ]; ring
  rw [this]
  have e : ((a + 1 : ℕ) : ℤ) - 1 = a := by push_cast; ring
  rw [e, ha]; simp

/-- lowering ladder relation. -/
theorem gs_lower (p q : ℤ) :
    ((n1 : ℚ) + n2 - a - p - q) * gs n1 n2 a p q =
      (p + 1) * gs n1 n2 a (p + 1) q + (q + 1) * gs n1 n2 a p (q + 1) := by
  have key := alt_telescope
    (fun k => rf k * rf (n1 - p - 1 - k) * rf (q - k) * rf (n2 - a - q + k) * rf (a - k - 1) * rf (p + 1 - a + k))
    (by simp [rf_neg (show (-1 : ℤ) < 0 by omega)]) a
    (by rw [rf_neg (show (a : ℤ) - a - 1 < 0 by omega)]; simp)
  have e : ((n1 : ℚ) + n2 - a - p - q) * gs n1 n2 a p q
      - ((p + 1) * gs n1 n2 a (p + 1) q + (q + 1) * gs n1 n2 a p (q + 1)) =
    - ∑ k ∈ range (a + 1), (-1 : ℚ) ^ k *
      ((fun k => rf k * rf (n1 - p - 1 - k) * rf (q - k) * rf (n2 - a - q + k) * rf (a - k - 1) * rf (p + 1 - a + k)) (k : ℤ) +
       (fun k => rf k * rf (n1 - p - 1 - k) * rf (q - k) * rf (n2 - a - q + k) * rf (a - k - 1) * rf (p + 1 - a + k)) ((k : ℤ) - 1)) := by
    unfold gs
    rw [mul_sum, mul_sum, mul_sum, ← sum_add_distrib, ← sum_sub_distrib, ← sum_neg_distrib]
    refine sum_congr rfl fun k _ => ?_
    unfold tm
    have r1 := rf_rec' (n1 - p - k) (n1 - p - 1 - k) (by ring)
    have r2 := rf_rec' (n2 - a - q + k) (n2 - a - q - 1 + k) (by ring)
    have r3 := rf_rec' (p + 1 - a + k) (p - a + k) (by ring)
    have r4 := rf_rec' (a - k) (a - k - 1) (by ring)
    have r5 := rf_rec' (q + 1 - k) (q - k) (by ring)
    have r6 := rf_rec' k (k - 1) (by ring)
    have i1 : (n1 : ℤ) - (p + 1) - k = n1 - p - 1 - k := by ring
    have i2 : p + 1 - (a : ℤ) + k = p + 1 - a + k := by ring
    have i3 : (n2 : ℤ) - a - (q + 1) + k = n2 - a - q - 1 + k := by ring
    have j1 : (n1 : ℤ) - p - 1 - ((k : ℤ) - 1) = n1 - p - k := by ring
    have j2 : q - ((k : ℤ) - 1) = q + 1 - k := by ring
    have j3 : (n2 : ℤ) - a - q + ((k : ℤ) - 1) = n2 - a - q - 1 + k := by ring
    have j4 : (a : ℤ) - ((k : ℤ) - 1) - 1 = a - k := by ring
    have j5 : p + 1 - (a : ℤ) + ((k : ℤ) - 1) = p - a + k := by ring
    simp only [i1, i3, j1, j2, j3, j4, j5]
    push_cast at r1 r2 r3 r4 r5 r6
    generalize rf k = K at *
    generalize rf ((k : ℤ) - 1) = K' at *
    generalize rf (n1 - p - k) = B at *
    generalize rf (n1 - p - 1 - k) = B' at *
    generalize rf (n2 - a - q + k) = F at *
    generalize rf (n2 - a - q - 1 + k) = F' at *
    generalize rf (p + 1 - a + k) = E at *
    generalize rf (p - a + k) = E' at *
    generalize rf (a - k) = A at *
    generalize rf (a - k - 1) = A' at *
    generalize rf (q + 1 - k) = D at *
    generalize rf (q - k) = D' at *
    rw [← r1, ← r2, ← r3, ← r4, ← r5, ← r6]
    ring
  rw [key] at e
  linarith only [e]

/-- raising ladder relation. -/
theorem gs_raise (p q : ℤ) :
    ((p : ℚ) + q - a) * gs n1 n2 a p q =
      (n1 - p + 1) * gs n1 n2 a (p - 1) q + (n2 - q + 1) * gs n1 n2 a p (q - 1) := by
  have key := alt_telescope
    (fun k => rf k * rf (a - k - 1) * rf (n1 - p - k) * rf (q - k - 1) * rf (p - a + k) * rf (n2 - a - q + k + 1))
    (by simp [rf_neg (show (-1 : ℤ) < 0 by omega)]) a
    (by rw [rf_neg (show (a : ℤ) - a - 1 < 0 by omega)]; simp)
  have e : ((p : ℚ) + q - a) * gs n1 n2 a p q
      - ((n1 - p + 1) * gs n1 n2 a (p - 1) q + (n2 - q + 1) * gs n1 n2 a p (q - 1)) =
    - ∑ k ∈ range (a + 1), (-1 : ℚ) ^ k *
      ((fun k => rf k * rf (a - k - 1) * rf (n1 - p - k) * rf (q - k - 1) * rf (p - a + k) * rf (n2 - a - q + k + 1)) (k : ℤ) +
       (fun k => rf k * rf (a - k - 1) * rf (n1 - p - k) * rf (q - k - 1) * rf (p - a + k) * rf (n2 - a - q + k + 1)) ((k : ℤ) - 1)) := by
    unfold gs
    rw [mul_sum, mul_sum, mul_sum, ← sum_add_distrib, ← sum_sub_distrib, ← sum_neg_distrib]
    refine sum_congr rfl fun k _ => ?_
    unfold tm
    have r1 := rf_rec' (p - a + k) (p - 1 - a + k) (by ring)
    have r2 := rf_rec' (q - k) (q - k - 1) (by ring)
    have r3 := rf_rec' (n1 - p + 1 - k) (n1 - p - k) (by ring)
    have r4 := rf_rec' (a - k) (a - k - 1) (by ring)
    have r5 := rf_rec' (n2 - a - q + k + 1) (n2 - a - q + k) (by ring)
    have r6 := rf_rec' k (k - 1) (by ring)
    have i1 : (n1 : ℤ) - (p - 1) - k = n1 - p + 1 - k := by ring
    have i3 : (n2 : ℤ) - a - (q - 1) + k = n2 - a - q + k + 1 := by ring
    have i4 : q - 1 - (k : ℤ) = q - k - 1 := by ring
    have j1 : (n1 : ℤ) - p - ((k : ℤ) - 1) = n1 - p + 1 - k := by ring
    have j2 : q - ((k : ℤ) - 1) - 1 = q - k := by ring
    have j3 : (n2 : ℤ) - a - q + ((k : ℤ) - 1) + 1 = n2 - a - q + k := by ring
    have j4 : (a : ℤ) - ((k : ℤ) - 1) - 1 = a - k := by ring
    have j5 : p - (a : ℤ) + ((k : ℤ) - 1) = p - 1 - a + k := by ring
    simp only [i1, i3, i4, j1, j2, j3, j4, j5]
    push_cast at r1 r2 r3 r4 r5 r6
    generalize rf k = K at *
    generalize rf ((k : ℤ) - 1) = K' at *
    generalize rf (n1 - p - k) = B' at *
    generalize rf (n1 - p + 1 - k) = B at *
    generalize rf (n2 - a - q + k + 1) = F at *
    generalize rf (n2 - a - q + k) = F' at *
    generalize rf (p - a + k) = E at *
    generalize rf (p - 1 - a + k) = E' at *
    generalize rf (a - k) = A at *
    generalize rf (a - k - 1) = A' at *
    generalize rf (q - k) = D at *
    generalize rf (q - k - 1) = D' at *
    rw [← r1, ← r2, ← r3, ← r4, ← r5, ← r6]
    ring
  rw [key] at e
  linarith only [e]

/-- support of the sum. -/
theorem gs_zero (p q : ℤ) (h : p < 0 ∨ n1 < p ∨ q < 0 ∨ n2 < q ∨ p + q < a ∨ (n1 : ℤ) + n2 - a < p + q) :
    gs n1 n2 a p q = 0 := by
  unfold gs
  refine sum_eq_zero fun k hk => ?_
  have hk' : k ≤ a := by simpa [Nat.lt_succ_iff] using hk
  unfold tm
  rcases lt_or_ge ((n1 : ℤ) - p - k) 0 with h1 | h1
  · rw [rf_neg h1]; simp
  rcases lt_or_ge (q - (k : ℤ)) 0 with h2 | h2
  · rw [rf_neg h2]; simp
  rcases lt_or_ge (p - (a : ℤ) + k) 0 with h3 | h3
  · rw [rf_neg h3]; simp
  rcases lt_or_ge ((n2 : ℤ) - a - q + k) 0 with h4 | h4
  · rw [rf_neg h4]; simp
  omega

/-- only one term contributes -/
theorem gs_single (p q : ℤ) (k0 : ℕ) (hk0 : k0 ≤ a)
    (h : ∀ k : ℕ, k ≤ a → k ≠ k0 → (n1 : ℤ) - p - k < 0 ∨ q - (k : ℤ) < 0 ∨ p - (a : ℤ) + k < 0 ∨ (n2 : ℤ) - a - q + k < 0) :
    gs n1 n2 a p q = (-1) ^ k0 * tm n1 n2 a p q k0 := by
  unfold gs
  refine sum_eq_single k0 (fun k hk hne => ?_) (fun hn => absurd (by simpa [Nat.lt_succ_iff] using hk0) hn)
  have hk' : k ≤ a := by simpa [Nat.lt_succ_iff] using hk
  unfold tm
  rcases h k hk' hne with h | h | h | h <;> rw [rf_neg h] <;> simp

theorem rf_pos {n : ℤ} (h : 0 ≤ n) : 0 < rf n := by
  rw [rf_nonneg h]; exact one_div_pos.2 (fc_pos n)

theorem tm_nonneg (p q k : ℤ) : 0 ≤ tm n1 n2 a p q k := by
  have : ∀ n : ℤ, 0 ≤ rf n := fun n => by
    rcases lt_or_ge n 0 with h | h
    · rw [rf_neg h]
    · exact (rf_pos h).le
  unfold tm
  have h1 := this k; have h2 := this (a - k); have h3 := this (n1 - p - k); have h4 := this (q - k)
  have h5 := this (p - a + k); have h6 := this (n2 - a - q + k)
  positivity

theorem tm_pos {p q k : ℤ} (h0 : 0 ≤ k) (h1 : k ≤ a) (h2 : k ≤ n1 - p) (h3 : k ≤ q) (h4 : a ≤ p + k) (h5 : a + q ≤ n2 + k) :
    0 < tm n1 n2 a p q k := by
  unfold tm
  have h1 := rf_pos h0; have h2 := rf_pos (n := a - k) (by omega); have h3 := rf_pos (n := n1 - p - k) (by omega)
  have h4 := rf_pos (n := q - k) (by omega)
  have h5 := rf_pos (n := p - a + k) (by omega); have h6 := rf_pos (n := n2 - a - q + k) (by omega)
  positivity

/-- the column `m2 = j2`: one term with `k = a`. -/
theorem gs_top (p : ℤ) : gs n1 n2 a p n2 = (-1) ^ a * tm n1 n2 a p n2 a :=
  gs_single p n2 a le_rfl fun k hk hne => by omega

/-- the row `m1 = j1`: one term with `k = 0`. -/
theorem gs_right (q : ℤ) : gs n1 n2 a n1 q = tm n1 n2 a n1 q 0 := by
  have := gs_single (n1 := n1) (n2 := n2) (a := a) n1 q 0 (Nat.zero_le _) fun k hk hne => by omega
  simpa using this

/-- first cell -/
theorem gs_first_ne (h1 : a ≤ n1) (h2 : a ≤ n2) : gs n1 n2 a 0 n2 ≠ 0 := by
  rw [gs_top]
  have : 0 < tm n1 n2 a 0 n2 a := tm_pos (by omega) (by omega) (by omega) (by omega) (by omega) (by omega)
  exact mul_ne_zero (pow_ne_zero _ (by norm_num)) this.ne'

/-! ### the norm -/

/-- `Σ_i C(P+i,i) C(Q+n-i,n-i) = C(P+Q+n+1,n)` -/
theorem choose_conv (P Q n : ℕ) :
    ∑ x ∈ antidiagonal n, (P + x.1).choose x.1 * (Q + x.2).choose x.2 = (P + Q + 1 + n).choose n := by
  have hP := PowerSeries.mk_one_pow_eq_mk_choose_add (S := ℤ) P
  have hQ := PowerSeries.mk_one_pow_eq_mk_choose_add (S := ℤ) Q
  have hPQ := PowerSeries.mk_one_pow_eq_mk_choose_add (S := ℤ) (P + Q + 1)
  have h : (PowerSeries.mk 1 : PowerSeries ℤ) ^ (P + 1) * (PowerSeries.mk 1) ^ (Q + 1) = (PowerSeries.mk 1) ^ (P + Q + 1 + 1) := by
    rw [← pow_add]; congr 1; ring
  rw [hP, hQ, hPQ] at h
  have hc := congrArg (PowerSeries.coeff n) h
  rw [PowerSeries.coeff_mul] at hc
  simp only [PowerSeries.coeff_mk] at hc
  have sy : ∀ A b : ℕ, (A + b).choose A = (A + b).choose b := fun A b => by
    rw [Nat.choose_symm_add]
  have h2 : ∑ x ∈ antidiagonal n, (P + x.1).choose P * (Q + x.2).choose Q = (P + Q + 1 + n).choose (P + Q + 1) := by
    exact_mod_cast hc
  rw [← sy, ← h2]
  exact sum_congr rfl fun x _ => by rw [sy, sy]

/-- `(j1+m1)!(j1-m1)!(j2+m2)!(j2-m2)!`. -/
def Wt (n1 n2 : ℕ) (p q : ℤ) : ℚ := fc p * fc (n1 - p) * fc q * fc (n2 - q)

/-- weighted square sum over a diagonal. -/
def Sq (n1 n2 a : ℕ) (s : ℕ) : ℚ := ∑ x ∈ antidiagonal s, Wt n1 n2 x.1 x.2 * gs n1 n2 a x.1 x.2 ^ 2

theorem Sq_step (s : ℕ) :
    ((n1 : ℚ) + n2 - a - s) * Sq n1 n2 a s = ((s : ℚ) + 1 - a) * Sq n1 n2 a (s + 1) := by
  have hl : ((n1 : ℚ) + n2 - a - s) * Sq n1 n2 a s =
      (∑ x ∈ antidiagonal s, Wt n1 n2 x.1 x.2 * gs n1 n2 a x.1 x.2 * ((x.1 + 1) * gs n1 n2 a (x.1 + 1) x.2)) +
      ∑ x ∈ antidiagonal s, Wt n1 n2 x.1 x.2 * gs n1 n2 a x.1 x.2 * ((x.2 + 1) * gs n1 n2 a x.1 (x.2 + 1)) := by
    unfold Sq
    rw [mul_sum, ← sum_add_distrib]
    refine sum_congr rfl fun x hx => ?_
    have hs : x.1 + x.2 = s := by simpa using hx
    have h := gs_lower (n1 := n1) (n2 := n2) (a := a) x.1 x.2
    have hsq : (s : ℚ) = x.1 + x.2 := by rw [← hs]; push_cast; rfl
    push_cast at h
    rw [hsq]
    calc _ = Wt n1 n2 x.1 x.2 * gs n1 n2 a x.1 x.2 * (((n1 : ℚ) + n2 - a - x.1 - x.2) * gs n1 n2 a x.1 x.2) := by ring
      _ = _ := by rw [h]; ring
  have hr : ((s : ℚ) + 1 - a) * Sq n1 n2 a (s + 1) =
      (∑ x ∈ antidiagonal (s + 1), Wt n1 n2 x.1 x.2 * gs n1 n2 a x.1 x.2 * ((n1 - x.1 + 1) * gs n1 n2 a (x.1 - 1) x.2)) +
      ∑ x ∈ antidiagonal (s + 1), Wt n1 n2 x.1 x.2 * gs n1 n2 a x.1 x.2 * ((n2 - x.2 + 1) * gs n1 n2 a x.1 (x.2 - 1)) := by
    unfold Sq
    rw [mul_sum, ← sum_add_distrib]
    refine sum_congr rfl fun x hx => ?_
    have hs : x.1 + x.2 = s + 1 := by simpa using hx
    have h := gs_raise (n1 := n1) (n2 := n2) (a := a) x.1 x.2
    have hsq : (s : ℚ) + 1 = x.1 + x.2 := by exact_mod_cast hs.symm
    push_cast at h
    rw [hsq]
    calc _ = Wt n1 n2 x.1 x.2 * gs n1 n2 a x.1 x.2 * (((x.1 : ℚ) + x.2 - a) * gs n1 n2 a x.1 x.2) := by ring
      _ = _ := by rw [h]; ring
  rw [hl, hr, Nat.sum_antidiagonal_succ, Nat.sum_antidiagonal_succ']
  have z1 : gs n1 n2 a (((0 : ℕ) : ℤ) - 1) ((s + 1 : ℕ) : ℤ) = 0 := gs_zero _ _ (by omega)
  have z2 : gs n1 n2 a ((s + 1 : ℕ) : ℤ) (((0 : ℕ) : ℤ) - 1) = 0 := gs_zero _ _ (by omega)
  simp only [z1, z2, mul_zero, zero_add]
  congr 1
  · refine sum_congr rfl fun x _ => ?_
    have e : ((x.1 + 1 : ℕ) : ℤ) - 1 = x.1 := by push_cast; ring
    have e' : ((x.1 + 1 : ℕ) : ℤ) = (x.1 : ℤ) + 1 := by push_cast; ring
    rw [e, e']
    rcases Nat.lt_or_ge x.1 n1 with h | h
    · unfold Wt
      rw [fc_succ (n := (x.1 : ℤ)) (by omega), show (n1 : ℤ) - x.1 = (n1 - (x.1 + 1)) + 1 by ring, fc_succ (by omega)]
      push_cast; ring
    · rw [gs_zero (n1 := n1) ((x.1 : ℤ) + 1) x.2 (by omega)]; simp
  · refine sum_congr rfl fun x _ => ?_
    have e : ((x.2 + 1 : ℕ) : ℤ) - 1 = x.2 := by push_cast; ring
    have e' : ((x.2 + 1 : ℕ) : ℤ) = (x.2 : ℤ) + 1 := by push_cast; ring
    rw [e, e']
    rcases Nat.lt_or_ge x.2 n2 with h | h
    · unfold Wt
      rw [fc_succ (n := (x.2 : ℤ)) (by omega), show (n2 : ℤ) - x.2 = (n2 - (x.2 + 1)) + 1 by ring, fc_succ (by omega)]
      push_cast; ring
    · rw [gs_zero (n2 := n2) x.1 ((x.2 : ℤ) + 1) (by omega)]; simp

/-- on the top diagonal (`m = j`) there is one term, with `k = n1 - p`. -/
theorem gs_diag (i : ℕ) (hi : i ≤ a) :
    gs n1 n2 a (n1 - i) (n2 - a + i) = (-1) ^ i * (rf i * rf (a - i) * rf (n2 - a) * rf (n1 - a)) := by
  rw [gs_single _ _ i hi (fun k hk hne => by omega)]
  unfold tm
  rw [show (n1 : ℤ) - (n1 - i) - i = 0 by ring, show (n2 : ℤ) - a + i - i = n2 - a by ring,
    show (n1 : ℤ) - i - a + i = n1 - a by ring, show (n2 : ℤ) - a - (n2 - a + i) + i = 0 by ring, rf_zero]
  ring

theorem Sq_top (h1 : a ≤ n1) (h2 : a ≤ n2) :
    Sq n1 n2 a (n1 + n2 - a) = ((n1 + n2 - a + 1).choose a : ℚ) / (fc (n1 - a) * fc (n2 - a)) := by
  unfold Sq
  have hsub : ∑ x ∈ antidiagonal (n1 + n2 - a), Wt n1 n2 x.1 x.2 * gs n1 n2 a x.1 x.2 ^ 2 =
      ∑ x ∈ antidiagonal a, Wt n1 n2 (n1 - x.1) (n2 - a + x.1) * gs n1 n2 a (n1 - x.1) (n2 - a + x.1) ^ 2 := by
    symm
    refine sum_bij_ne_zero (fun x _ _ => (n1 - x.1, n2 - a + x.1)) ?_ ?_ ?_ ?_
    · intro x hx _
      have : x.1 + x.2 = a := by simpa using hx
      simp only [mem_antidiagonal]; omega
    · intro x hx _ y hy _ h
      have e1 : x.1 + x.2 = a := by simpa using hx
      have e2 : y.1 + y.2 = a := by simpa using hy
      simp only [Prod.mk.injEq] at h
      ext <;> omega
    · intro x hx hne
      have hs : x.1 + x.2 = n1 + n2 - a := by simpa using hx
      have hg : gs n1 n2 a x.1 x.2 ≠ 0 := by rintro h; rw [h] at hne; simp at hne
      have hb : x.1 ≤ n1 ∧ x.2 ≤ n2 := by
        by_contra hc
        exact hg (gs_zero _ _ (by omega))
      have k1 : ((n1 - x.1 : ℕ) : ℤ) = n1 - x.1 := by omega
      refine ⟨(n1 - x.1, n2 - x.2), by simp only [mem_antidiagonal]; omega, ?_, by ext <;> simp <;> omega⟩
      simp only [k1]
      rw [show (n1 : ℤ) - (n1 - x.1) = x.1 by ring, show (n2 : ℤ) - a + (n1 - x.1) = x.2 by omega]
      exact hne
    · intro x hx _
      have : x.1 + x.2 = a := by simpa using hx
      have k1 : ((n1 - x.1 : ℕ) : ℤ) = n1 - x.1 := by omega
      have k2 : ((n2 - a + x.1 : ℕ) : ℤ) = n2 - a + x.1 := by omega
      simp only [k1, k2]
  rw [hsub]
  have hc := choose_conv (n2 - a) (n1 - a) a
  have e : n2 - a + (n1 - a) + 1 + a = n1 + n2 - a + 1 := by omega
  rw [e] at hc
  rw [← hc]
  push_cast
  rw [Finset.sum_div]
  refine sum_congr rfl fun x hx => ?_
  have hxa : x.1 + x.2 = a := by simpa using hx
  rw [gs_diag x.1 (by omega)]
  unfold Wt
  have c1 : ((n2 - a + x.1).choose x.1 : ℚ) = fc (n2 - a + x.1) / (fc x.1 * fc (n2 - a)) := by
    rw [Nat.cast_choose ℚ (by omega)]
    unfold fc
    congr 2
    · congr 2; omega
    · congr 2; congr 1; omega
  have c2 : ((n1 - a + x.2).choose x.2 : ℚ) = fc (n1 - x.1) / (fc (a - x.1) * fc (n1 - a)) := by
    rw [Nat.cast_choose ℚ (by omega)]
    unfold fc
    congr 2
    · congr 2; omega
    · congr 2; congr 1; omega
    · congr 2; omega
  rw [c1, c2, rf_nonneg (by omega), rf_nonneg (by omega), rf_nonneg (by omega), rf_nonneg (by omega)]
  rw [show (n1 : ℤ) - (n1 - x.1) = x.1 by ring, show (n2 : ℤ) - (n2 - a + x.1) = a - x.1 by ring]
  have f1 := fc_ne x.1; have f2 := fc_ne (a - x.1); have f3 := fc_ne (n1 - a); have f4 := fc_ne (n2 - a)
  have sg : ((-1 : ℚ) ^ x.1) ^ 2 = 1 := by rw [← pow_mul, mul_comm, pow_mul]; norm_num
  rw [mul_pow, sg]
  field_simp

/-- every diagonal has the same norm. -/
theorem norm_all (h1 : a ≤ n1) (h2 : a ≤ n2) (s : ℕ) (hs : a ≤ s) (hs' : s + a ≤ n1 + n2) :
    fc (s - a) * fc (n1 + n2 - a - s) * Sq n1 n2 a s * ((n1 + n2 - 2 * a + 1 : ℤ) : ℚ) * fc (n1 - a) * fc (n2 - a) * fc a
      = fc (n1 + n2 - a + 1) := by
  have step : ∀ d : ℕ, s + a + d = n1 + n2 →
      fc (s - a) * fc (n1 + n2 - a - s) * Sq n1 n2 a s = fc (n1 + n2 - 2 * a) * Sq n1 n2 a (n1 + n2 - a) := by
    intro d hd
    clear hs'
    induction d generalizing s with
    | zero =>
      have : n1 + n2 - a = s := by omega
      rw [this, show (n1 : ℤ) + n2 - a - s = 0 by omega, show (n1 : ℤ) + n2 - 2 * a = s - a by omega]
      simp [fc]
    | succ d ih =>
      rw [← ih (s + 1) (by omega) (by omega)]
      have st := Sq_step (n1 := n1) (n2 := n2) (a := a) s
      rw [show (n1 : ℤ) + n2 - a - s = (n1 + n2 - a - (s + 1 : ℕ)) + 1 by push_cast; ring, fc_succ (by push_cast; omega),
        show ((s + 1 : ℕ) : ℤ) - a = (s - a) + 1 by push_cast; ring, fc_succ (by omega)]
      push_cast
      push_cast at st
      linear_combination fc (s - a) * fc (n1 + n2 - a - (s + 1)) * st
  rw [step (n1 + n2 - a - s) (by omega), Sq_top h1 h2]
  rw [Nat.cast_choose ℚ (by omega)]
  have e1 : ((n1 + n2 - a + 1).factorial : ℚ) = fc (n1 + n2 - a + 1) := by unfold fc; congr 2; omega
  have e2 : (a.factorial : ℚ) = fc a := by unfold fc; congr 1
  have e3 : ((n1 + n2 - a + 1 - a).factorial : ℚ) = fc (n1 + n2 - 2 * a + 1) := by unfold fc; congr 2; omega
  rw [e1, e2, e3, fc_succ (n := (n1 : ℤ) + n2 - 2 * a) (by omega)]
  have f1 := fc_ne a; have f3 := fc_ne (n1 - a); have f4 := fc_ne (n2 - a); have f5 := fc_ne (n1 + n2 - 2 * a)
  have f6 : (((n1 : ℤ) + n2 - 2 * a : ℤ) : ℚ) + 1 ≠ 0 := by
    have : (0 : ℚ) ≤ (((n1 : ℤ) + n2 - 2 * a : ℤ) : ℚ) := by exact_mod_cast (by omega : (0:ℤ) ≤ (n1 : ℤ) + n2 - 2 * a)
    linarith
  rw [show (((n1 : ℤ) + n2 - 2 * a + 1 : ℤ) : ℚ) = (((n1 : ℤ) + n2 - 2 * a : ℤ) : ℚ) + 1 by push_cast; ring]
  field_simp

end Rpwa.CgBox

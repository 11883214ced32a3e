import Verif.Lemmas.CgLadder
import Verif.Lemmas.FractionOps
import Verif.Lemmas.Outcome
import Verif.Model.CgBox
/-!
# The cells of the unnormalized table
-/
namespace Rpwa.CgBox
open Finset Fraction

/-- signed square -/
def ssq (x : ℚ) : ℚ := x * |x|

theorem ssq_mul (x y : ℚ) : ssq (x * y) = ssq x * ssq y := by unfold ssq; rw [abs_mul]; ring
theorem ssq_nonneg {x : ℚ} (h : 0 ≤ x) : ssq x = x ^ 2 := by unfold ssq; rw [abs_of_nonneg h]; ring
theorem ssq_neg (x : ℚ) : ssq (-x) = -ssq x := by unfold ssq; rw [abs_neg]; ring
theorem abs_ssq (x : ℚ) : |ssq x| = x ^ 2 := by unfold ssq; rw [abs_mul, abs_abs, ← sq, sq_abs]
theorem ssq_zero : ssq 0 = 0 := by simp [ssq]
theorem ssq_lt {x y : ℚ} : ssq x < ssq y ↔ x < y := by
  have key : ∀ x y : ℚ, x < y → ssq x < ssq y := by
    intro x y h
    unfold ssq
    rcases le_or_gt 0 x with hx | hx
    · rw [abs_of_nonneg hx, abs_of_nonneg (hx.trans h.le)]; nlinarith
    · rw [abs_of_neg hx]
      rcases le_or_gt 0 y with hy | hy
      · rw [abs_of_nonneg hy]; nlinarith
      · rw [abs_of_neg hy]; nlinarith
  refine ⟨fun h => ?_, key x y⟩
  by_contra hc
  rcases (not_lt.mp hc).eq_or_lt with e | e
  · rw [e] at h; exact lt_irrefl _ h
  · exact lt_irrefl _ (h.trans (key _ _ e))

theorem signedSqrt_ssq (r : ℚ) : signedSqrtOrSelf (ssq r) = r := by
  have h : Rat.sqrt |ssq r| = |r| := by
    rw [abs_ssq, sq, Rat.sqrt_eq]
  unfold signedSqrtOrSelf
  rw [h, if_pos (by rw [abs_ssq, ← sq, sq_abs])]
  unfold ssq
  rcases lt_trichotomy r 0 with hr | hr | hr
  · rw [sign_neg (mul_neg_of_neg_of_pos hr (abs_pos.mpr hr.ne)), abs_of_neg hr]; simp
  · simp [hr]
  · rw [sign_pos (mul_pos hr (abs_pos.mpr hr.ne')), abs_of_pos hr]; simp

theorem frac_ok (n d : ℤ) (hd : d ≠ 0) : ∃ f, frac n d = .ok f ∧ Ok f (n / d) := by
  obtain ⟨f, h1, h2, _⟩ := ofInts_ok n d hd
  exact ⟨f, by unfold frac; rw [h1], h2⟩

theorem plus_ok {a b : Frac} {x y : ℚ} (ha : Ok a x) (hb : Ok b y) : ∃ f, plus a b = .ok f ∧ Ok f (x + y) := by
  obtain ⟨f, h1, h2, _⟩ := add_ok ha hb
  exact ⟨f, by unfold plus; rw [h1], h2⟩

theorem sqrt_mixed {x y : Frac} {u v c : ℚ} (hx : Ok x (ssq u * c)) (hy : Ok y (ssq v * c)) (hc : 0 < c) :
    (sqrt (mul x y)).1 = true ∧ Ok (sqrt (mul x y)).2 (u * v * c) := by
  have hm := mul_ok hx hy
  have e : ssq u * c * (ssq v * c) = ssq (u * v * c) := by
    rw [ssq_mul, ssq_mul, ssq_nonneg hc.le]; ring
  rw [e] at hm
  obtain ⟨h1, h2⟩ := sqrt_ok hm
  refine ⟨h1.mpr ⟨u * v * c, by rw [abs_ssq, sq]⟩, ?_⟩
  rw [signedSqrt_ssq] at h2
  exact h2

theorem rootDiff_ok {x y : Frac} {u v c : ℚ} (hx : Ok x (ssq u * c)) (hy : Ok y (ssq v * c)) (hc : 0 < c) :
    ∃ r, rootDiff x y = .ok r ∧ Ok r (ssq (u - v) * c) := by
  obtain ⟨h1, h2⟩ := sqrt_mixed hx hy hc
  obtain ⟨s, hs, os⟩ := plus_ok (abs_ok hx.getDval) (abs_ok hy.getDval)
  obtain ⟨t, ht, ot⟩ := frac_ok (-2) 1 (by decide)
  obtain ⟨r, hr, or⟩ := plus_ok os (mul_ok ot h2)
  have hflip : (dval false y > dval false x) ↔ u < v := by
    rw [hx.dval_eq, hy.dval_eq]
    show ((ssq u * c : ℚ) : ℝ) < ((ssq v * c : ℚ) : ℝ) ↔ _
    rw [Rat.cast_lt, mul_lt_mul_iff_left₀ hc, ssq_lt]
  have hval : |ssq u * c| + |ssq v * c| + ((-2 : ℤ) : ℚ) / ((1 : ℤ) : ℚ) * (u * v * c) = (u - v) ^ 2 * c := by
    rw [abs_mul, abs_mul, abs_ssq, abs_ssq, abs_of_pos hc]; push_cast; ring
  rw [hval] at or
  unfold rootDiff
  dsimp only
  rw [if_pos h1, hs, Outcome.ok_bind, ht, Outcome.ok_bind, hr, Outcome.ok_bind]
  refine ⟨_, rfl, ?_⟩
  by_cases hf : u < v
  · rw [if_pos (hflip.mpr hf)]
    have e : ssq (u - v) * c = -((u - v) ^ 2 * c) := by
      rw [show u - v = -(v - u) by ring, ssq_neg, ssq_nonneg (by linarith)]; ring
    rw [e]
    exact flipSign_ok or
  · rw [if_neg (fun h => hf (hflip.mp h)), ssq_nonneg (by linarith)]
    exact or

theorem rootSum_ok {x y : Frac} {u v c : ℚ} (hx : Ok x (ssq u * c)) (hy : Ok y (ssq v * c)) (hc : 0 < c)
    (huv : 0 ≤ u + v) : ∃ r, rootSum x y = .ok r ∧ Ok r (ssq (u + v) * c) := by
  obtain ⟨h1, h2⟩ := sqrt_mixed hx hy hc
  obtain ⟨s, hs, os⟩ := plus_ok (abs_ok hx) (abs_ok hy)
  obtain ⟨t, ht, ot⟩ := frac_ok 2 1 (by decide)
  obtain ⟨r, hr, or⟩ := plus_ok os (mul_ok ot h2)
  have hval : |ssq u * c| + |ssq v * c| + ((2 : ℤ) : ℚ) / ((1 : ℤ) : ℚ) * (u * v * c) = ssq (u + v) * c := by
    rw [abs_mul, abs_mul, abs_ssq, abs_ssq, abs_of_pos hc, ssq_nonneg huv]; push_cast; ring
  rw [hval] at or
  unfold rootSum
  dsimp only
  rw [if_pos h1, hs, Outcome.ok_bind, ht, Outcome.ok_bind]
  exact ⟨r, hr, or⟩

/-! ### values -/

/-- `(j1+m1)!(j1-m1)!(j2+m2)!(j2-m2)!(j+m)!(j-m)!`. -/
def Pf (n1 n2 a : ℕ) (p q : ℤ) : ℚ := Wt n1 n2 p q * fc (p + q - a) * fc (n1 + n2 - a - p - q)

theorem Pf_pos (n1 n2 a : ℕ) (p q : ℤ) : 0 < Pf n1 n2 a p q := by
  unfold Pf Wt
  have := fc_pos p; have := fc_pos (n1 - p); have := fc_pos q; have := fc_pos (n2 - q)
  have := fc_pos (p + q - a); have := fc_pos (n1 + n2 - a - p - q)
  positivity

variable {n1 n2 a : ℕ}

theorem Pf_A {p q : ℤ} (h1 : 1 ≤ p) (h2 : p ≤ n1) (h3 : a + 1 ≤ p + q) (h4 : p + q ≤ n1 + n2 - a) :
    Pf n1 n2 a p q * ((n1 - p + 1) * (n1 + n2 - a - p - q + 1)) = Pf n1 n2 a (p - 1) q * (p * (p + q - a)) := by
  unfold Pf Wt
  have e1 := fc_succ (n := p - 1) (by omega)
  have e2 := fc_succ (n := n1 - p) (by omega)
  have e3 := fc_succ (n := p + q - a - 1) (by omega)
  have e4 := fc_succ (n := n1 + n2 - a - p - q) (by omega)
  rw [show p - 1 + 1 = p by ring] at e1
  rw [show p + q - a - 1 + 1 = p + q - a by ring] at e3
  rw [show (n1 : ℤ) - (p - 1) = n1 - p + 1 by ring, show p - 1 + q - a = p + q - a - 1 by ring,
    show (n1 : ℤ) + n2 - a - (p - 1) - q = n1 + n2 - a - p - q + 1 by ring, e1, e2, e3, e4]
  push_cast
  ring

theorem Pf_B {p q : ℤ} (h1 : 1 ≤ p) (h2 : p ≤ n1) (h3 : 0 ≤ q) (h4 : q + 1 ≤ n2) :
    Pf n1 n2 a p q * ((n1 - p + 1) * (q + 1)) = Pf n1 n2 a (p - 1) (q + 1) * (p * (n2 - q)) := by
  unfold Pf Wt
  have e1 := fc_succ (n := p - 1) (by omega)
  have e2 := fc_succ (n := n1 - p) (by omega)
  have e3 := fc_succ (n := q) (by omega)
  have e4 := fc_succ (n := n2 - q - 1) (by omega)
  rw [show p - 1 + 1 = p by ring] at e1
  rw [show (n2 : ℤ) - q - 1 + 1 = n2 - q by ring] at e4
  rw [show (n1 : ℤ) - (p - 1) = n1 - p + 1 by ring, show p - 1 + (q + 1) - a = p + q - a by ring,
    show (n1 : ℤ) + n2 - a - (p - 1) - (q + 1) = n1 + n2 - a - p - q by ring,
    show (n2 : ℤ) - (q + 1) = n2 - q - 1 by ring, e1, e2, e3, e4]
  push_cast
  ring

theorem Pf_C {p q : ℤ} (h1 : 0 ≤ q) (h2 : q + 1 ≤ n2) (h3 : a ≤ p + q) (h4 : p + q + 1 ≤ n1 + n2 - a) :
    Pf n1 n2 a p q * ((q + 1) * (p + q + 1 - a)) = Pf n1 n2 a p (q + 1) * ((n2 - q) * (n1 + n2 - a - p - q)) := by
  unfold Pf Wt
  have e3 := fc_succ (n := q) (by omega)
  have e4 := fc_succ (n := n2 - q - 1) (by omega)
  have e5 := fc_succ (n := p + q - a) (by omega)
  have e6 := fc_succ (n := n1 + n2 - a - p - q - 1) (by omega)
  rw [show (n2 : ℤ) - q - 1 + 1 = n2 - q by ring] at e4
  rw [show (n1 : ℤ) + n2 - a - p - q - 1 + 1 = n1 + n2 - a - p - q by ring] at e6
  rw [show p + (q + 1) - a = p + q - a + 1 by ring,
    show (n1 : ℤ) + n2 - a - p - (q + 1) = n1 + n2 - a - p - q - 1 by ring,
    show (n2 : ℤ) - (q + 1) = n2 - q - 1 by ring, e3, e4, e5, e6]
  push_cast
  ring

/-- Racah's sum divided by its value at the first cell. -/
def hs (n1 n2 a : ℕ) (p q : ℤ) : ℚ := gs n1 n2 a p q / gs n1 n2 a 0 n2

/-- the factorials divided by their value at the first cell. -/
def Pr (n1 n2 a : ℕ) (p q : ℤ) : ℚ := Pf n1 n2 a p q / Pf n1 n2 a 0 n2

theorem Pr_pos (p q : ℤ) : 0 < Pr n1 n2 a p q := div_pos (Pf_pos _ _ _ _ _) (Pf_pos _ _ _ _ _)

/-- value of a cell of the unnormalized table. -/
def Tv (n1 n2 a : ℕ) (p q : ℤ) : ℚ := ssq (hs n1 n2 a p q) * Pr n1 n2 a p q

theorem scale {h P P' α β num den : ℚ} (hk : 0 ≤ α / β) (hβ : β ≠ 0) (hden : den ≠ 0)
    (e : α ^ 2 * P * den = P' * num * β ^ 2) : ssq h * P' * (num / den) = ssq (α / β * h) * P := by
  rw [ssq_mul, ssq_nonneg hk]
  field_simp
  linear_combination -ssq h * e

theorem Pr_ne (p q : ℤ) : Pr n1 n2 a p q ≠ 0 := (Pr_pos p q).ne'

theorem Pr_of {x y : ℚ} {p q p' q' : ℤ} (h : Pf n1 n2 a p q * x = Pf n1 n2 a p' q' * y) :
    Pr n1 n2 a p q * x = Pr n1 n2 a p' q' * y := by
  unfold Pr
  have h0 := (Pf_pos n1 n2 a 0 n2).ne'
  field_simp
  exact h

theorem hs_zero (p q : ℤ) (h : p < 0 ∨ n1 < p ∨ q < 0 ∨ n2 < q ∨ p + q < a ∨ (n1 : ℤ) + n2 - a < p + q) :
    hs n1 n2 a p q = 0 := by unfold hs; rw [gs_zero p q h]; simp

theorem hs_lower (p q : ℤ) :
    ((n1 : ℚ) + n2 - a - p - q + 1) * hs n1 n2 a (p - 1) q = p * hs n1 n2 a p q + (q + 1) * hs n1 n2 a (p - 1) (q + 1) := by
  have h := gs_lower (n1 := n1) (n2 := n2) (a := a) (p - 1) q
  rw [show p - 1 + 1 = p by ring] at h
  push_cast at h
  unfold hs
  linear_combination (1 / gs n1 n2 a 0 n2) * h

theorem hs_raise (p q : ℤ) :
    ((p : ℚ) + q - a) * hs n1 n2 a p q = (n1 - p + 1) * hs n1 n2 a (p - 1) q + (n2 - q + 1) * hs n1 n2 a p (q - 1) := by
  have h := gs_raise (n1 := n1) (n2 := n2) (a := a) p q
  unfold hs
  linear_combination (1 / gs n1 n2 a 0 n2) * h

theorem hs_top_nonneg (p : ℤ) : 0 ≤ hs n1 n2 a p n2 := by
  unfold hs
  rw [gs_top, gs_top]
  have h1 := tm_nonneg (n1 := n1) (n2 := n2) (a := a) p n2 a
  have h2 := tm_nonneg (n1 := n1) (n2 := n2) (a := a) 0 n2 a
  rcases neg_one_pow_eq_or ℚ a with h | h <;> rw [h]
  · rw [one_mul, one_mul]; exact div_nonneg h1 h2
  · rw [neg_one_mul, neg_one_mul, neg_div_neg_eq]; exact div_nonneg h1 h2

/-- first row -/
theorem cell_first {q : ℤ} (h0 : 0 ≤ q) (h1 : q + 1 ≤ n2) (h2 : (a : ℤ) ≤ q) (h3 : q + 1 ≤ n1 + n2 - a) :
    Tv n1 n2 a 0 (q + 1) * ((((n1 : ℚ) + n2 - 2 * a) - (-n1 + (-n2 + 2 * q))) * ((n1 + n2 - 2 * a) + (-n1 + (-n2 + 2 * q)) + 2)
      / ((n2 - (-n2 + 2 * q)) * (n2 + (-n2 + 2 * q) + 2))) = Tv n1 n2 a 0 q := by
  have hr := hs_raise (n1 := n1) (n2 := n2) (a := a) 0 (q + 1)
  rw [hs_zero (0 - 1) (q + 1) (by omega), show q + 1 - 1 = q by ring] at hr
  push_cast at hr
  have hq : (0 : ℚ) < n2 - q := by have : (q : ℚ) + 1 ≤ n2 := by exact_mod_cast h1
                                   linarith
  have hq1 : (0 : ℚ) < q + 1 := by have : (0 : ℚ) ≤ q := by exact_mod_cast h0
                                   linarith
  have ha : (0 : ℚ) ≤ q + 1 - a := by have : (a : ℚ) ≤ q := by exact_mod_cast h2
                                      linarith
  have hv : hs n1 n2 a 0 q = (q + 1 - a) / (n2 - q) * hs n1 n2 a 0 (q + 1) := by
    field_simp
    linear_combination -hr
  have hp := Pr_of (Pf_C (n1 := n1) (n2 := n2) (a := a) (p := 0) (q := q) h0 h1 (by omega) (by omega))
  unfold Tv
  rw [hv]
  refine scale (div_nonneg ha hq.le) hq.ne' ?_ ?_
  · have : ((n2 : ℚ) - (-n2 + 2 * q)) * (n2 + (-n2 + 2 * q) + 2) = 4 * ((n2 - q) * (q + 1)) := by ring
    rw [this]; positivity
  · push_cast at hp
    linear_combination 4 * (q + 1 - a) * (n2 - q) * hp

/-- `x` of a cell -/
theorem cell_x {p q : ℤ} (h1 : 1 ≤ p) (h2 : p ≤ n1) (h3 : (a : ℤ) + 1 ≤ p + q) (h4 : p + q ≤ n1 + n2 - a) :
    Tv n1 n2 a (p - 1) q * ((((n1 : ℚ) + n2 - 2 * a) + (-n1 + 2 * p + (-n2 + 2 * q))) * ((n1 + n2 - 2 * a) - (-n1 + 2 * p + (-n2 + 2 * q)) + 2)
      / ((n1 + (-n1 + 2 * p)) * (n1 - (-n1 + 2 * p) + 2)))
      = ssq ((n1 + n2 - a - p - q + 1) / p * hs n1 n2 a (p - 1) q) * Pr n1 n2 a p q := by
  have hp0 : (0 : ℚ) < p := by exact_mod_cast (by omega : 0 < p)
  have hn : (0 : ℚ) < n1 - p + 1 := by have : (p : ℚ) ≤ n1 := by exact_mod_cast h2
                                       linarith
  have hj : (0 : ℚ) ≤ n1 + n2 - a - p - q + 1 := by
    have : ((p + q : ℤ) : ℚ) ≤ ((n1 + n2 - a : ℤ) : ℚ) := by exact_mod_cast h4
    push_cast at this; linarith
  have hp := Pr_of (Pf_A h1 h2 h3 h4)
  unfold Tv
  refine scale (div_nonneg hj hp0.le) hp0.ne' ?_ ?_
  · have : ((n1 : ℚ) + (-n1 + 2 * p)) * (n1 - (-n1 + 2 * p) + 2) = 4 * (p * (n1 - p + 1)) := by ring
    rw [this]; positivity
  · linear_combination 4 * (n1 + n2 - a - p - q + 1) * p * hp

/-- `y` of a cell -/
theorem cell_y {p q : ℤ} (h1 : 1 ≤ p) (h2 : p ≤ n1) (h3 : 0 ≤ q) (h4 : q + 1 ≤ n2) :
    Tv n1 n2 a (p - 1) (q + 1) * (((n2 : ℚ) - (-n2 + 2 * q)) * (n2 + (-n2 + 2 * q) + 2)
      / ((n1 + (-n1 + 2 * p)) * (n1 - (-n1 + 2 * p) + 2)))
      = ssq ((q + 1) / p * hs n1 n2 a (p - 1) (q + 1)) * Pr n1 n2 a p q := by
  have hp0 : (0 : ℚ) < p := by exact_mod_cast (by omega : 0 < p)
  have hn : (0 : ℚ) < n1 - p + 1 := by have : (p : ℚ) ≤ n1 := by exact_mod_cast h2
                                       linarith
  have hq1 : (0 : ℚ) < q + 1 := by have : (0 : ℚ) ≤ q := by exact_mod_cast h3
                                   linarith
  have hp := Pr_of (a := a) (Pf_B h1 h2 h3 h4)
  unfold Tv
  refine scale (div_nonneg hq1.le hp0.le) hp0.ne' ?_ ?_
  · have : ((n1 : ℚ) + (-n1 + 2 * p)) * (n1 - (-n1 + 2 * p) + 2) = 4 * (p * (n1 - p + 1)) := by ring
    rw [this]; positivity
  · linear_combination 4 * (q + 1) * p * hp

theorem hs_middle {p q : ℤ} (h1 : 1 ≤ p) : hs n1 n2 a p q =
    (n1 + n2 - a - p - q + 1) / p * hs n1 n2 a (p - 1) q - (q + 1) / p * hs n1 n2 a (p - 1) (q + 1) := by
  have hp0 : (0 : ℚ) < p := by exact_mod_cast (by omega : 0 < p)
  have hl := hs_lower (n1 := n1) (n2 := n2) (a := a) p q
  field_simp
  linear_combination -hl

/-- `u` of a cell in the column `m2 = j2` -/
theorem cell_u {p : ℤ} (h1 : 1 ≤ p) (h2 : p ≤ n1) (h3 : (a : ℤ) + 1 ≤ p + n2) (h4 : p + n2 ≤ n1 + n2 - a) :
    Tv n1 n2 a (p - 1) n2 * (((n1 : ℚ) + (-n1 + 2 * p)) * (n1 - (-n1 + 2 * p) + 2)
      / (((n1 + n2 - 2 * a) - (-n1 + 2 * p + n2) + 2) * ((n1 + n2 - 2 * a) + (-n1 + 2 * p + n2))))
      = ssq ((n1 - p + 1) / (p + n2 - a) * hs n1 n2 a (p - 1) n2) * Pr n1 n2 a p n2 := by
  have hn : (0 : ℚ) < n1 - p + 1 := by have : (p : ℚ) ≤ n1 := by exact_mod_cast h2
                                       linarith
  have hj : (0 : ℚ) < n1 + n2 - a - p - n2 + 1 := by
    have : ((p + n2 : ℤ) : ℚ) ≤ ((n1 + n2 - a : ℤ) : ℚ) := by exact_mod_cast h4
    push_cast at this; linarith
  have hs : (0 : ℚ) < p + n2 - a := by
    have : ((a + 1 : ℤ) : ℚ) ≤ ((p + n2 : ℤ) : ℚ) := by exact_mod_cast h3
    push_cast at this; linarith
  have hp := Pr_of (Pf_A h1 h2 h3 h4)
  push_cast at hp
  unfold Tv
  refine scale (div_nonneg hn.le hs.le) hs.ne' ?_ ?_
  · have : (((n1 : ℚ) + n2 - 2 * a) - (-n1 + 2 * p + n2) + 2) * ((n1 + n2 - 2 * a) + (-n1 + 2 * p + n2))
        = 4 * ((n1 + n2 - a - p - n2 + 1) * (p + n2 - a)) := by ring
    rw [this]; positivity
  · linear_combination 4 * (n1 - p + 1) * (p + n2 - a) * hp

/-- `v` of a cell in the column `m2 = j2` -/
theorem cell_v {p : ℤ} (h0 : 1 ≤ n2) (h3 : (a : ℤ) + 1 ≤ p + n2) (h4 : p + n2 ≤ n1 + n2 - a) :
    Tv n1 n2 a p (n2 - 1) * (((n2 : ℚ) + n2) * (n2 - n2 + 2)
      / (((n1 + n2 - 2 * a) - (-n1 + 2 * p + n2) + 2) * ((n1 + n2 - 2 * a) + (-n1 + 2 * p + n2))))
      = ssq (1 / (p + n2 - a) * hs n1 n2 a p (n2 - 1)) * Pr n1 n2 a p n2 := by
  have hj : (0 : ℚ) < n1 + n2 - a - p - n2 + 1 := by
    have : ((p + n2 : ℤ) : ℚ) ≤ ((n1 + n2 - a : ℤ) : ℚ) := by exact_mod_cast h4
    push_cast at this; linarith
  have hs : (0 : ℚ) < p + n2 - a := by
    have : ((a + 1 : ℤ) : ℚ) ≤ ((p + n2 : ℤ) : ℚ) := by exact_mod_cast h3
    push_cast at this; linarith
  have hp := Pr_of (Pf_C (n1 := n1) (n2 := n2) (a := a) (p := p) (q := n2 - 1) (by omega) (by omega) (by omega) (by omega))
  rw [show (n2 : ℤ) - 1 + 1 = n2 by ring] at hp
  push_cast at hp
  unfold Tv
  refine scale (div_nonneg one_pos.le hs.le) hs.ne' ?_ ?_
  · have : (((n1 : ℚ) + n2 - 2 * a) - (-n1 + 2 * p + n2) + 2) * ((n1 + n2 - 2 * a) + (-n1 + 2 * p + n2))
        = 4 * ((n1 + n2 - a - p - n2 + 1) * (p + n2 - a)) := by ring
    rw [this]; positivity
  · linear_combination -4 * (p + n2 - a) * hp

theorem hs_column {p : ℤ} (h3 : (a : ℤ) + 1 ≤ p + n2) : hs n1 n2 a p n2 =
    (n1 - p + 1) / (p + n2 - a) * hs n1 n2 a (p - 1) n2 + 1 / (p + n2 - a) * hs n1 n2 a p (n2 - 1) := by
  have hs : (0 : ℚ) < p + n2 - a := by
    have : ((a + 1 : ℤ) : ℚ) ≤ ((p + n2 : ℤ) : ℚ) := by exact_mod_cast h3
    push_cast at this; linarith
  have hl := hs_raise (n1 := n1) (n2 := n2) (a := a) p n2
  push_cast at hl
  field_simp
  linear_combination hl

/-- `x` of a cell with `m = -j`, second calculation -/
theorem cell_low_x {p q : ℤ} (h0 : 0 ≤ q) (h1 : q + 1 ≤ n2) (h2 : p + q = a) :
    Tv n1 n2 a p (q + 1) * ((((n1 : ℚ) + n2 - 2 * a) - (-(n1 + n2 - 2 * a))) * ((n1 + n2 - 2 * a) + (-(n1 + n2 - 2 * a)) + 2)
      / ((n2 - (-n2 + 2 * q)) * (n2 + (-n2 + 2 * q) + 2)))
      = ssq (1 / (n2 - q) * hs n1 n2 a p (q + 1)) * Pr n1 n2 a p q := by
  have hq : (0 : ℚ) < n2 - q := by have : (q : ℚ) + 1 ≤ n2 := by exact_mod_cast h1
                                   linarith
  have hq1 : (0 : ℚ) < q + 1 := by have : (0 : ℚ) ≤ q := by exact_mod_cast h0
                                   linarith
  rcases lt_or_ge ((n1 : ℤ) + n2 - a) (p + q + 1) with hj | hj
  · unfold Tv
    rw [hs_zero p (q + 1) (by omega)]
    simp [ssq_zero]
  have hp := Pr_of (Pf_C h0 h1 h2.ge hj)
  have e : (p : ℚ) = a - q := by have : (p : ℚ) + q = a := by exact_mod_cast h2
                                 linarith
  unfold Tv
  refine scale (div_nonneg one_pos.le hq.le) hq.ne' ?_ ?_
  · have : ((n2 : ℚ) - (-n2 + 2 * q)) * (n2 + (-n2 + 2 * q) + 2) = 4 * ((n2 - q) * (q + 1)) := by ring
    rw [this]; positivity
  · rw [e] at hp
    linear_combination 4 * (n2 - q) * hp

/-- `y` of a cell with `m = -j`, second calculation -/
theorem cell_low_y {p q : ℤ} (h1 : 1 ≤ p) (h2 : p ≤ n1) (h3 : 0 ≤ q) (h4 : q + 1 ≤ n2) :
    Tv n1 n2 a (p - 1) (q + 1) * (((n1 : ℚ) + (-n1 + 2 * p)) * (n1 - (-n1 + 2 * p) + 2)
      / ((n2 - (-n2 + 2 * q)) * (n2 + (-n2 + 2 * q) + 2)))
      = ssq ((n1 - p + 1) / (n2 - q) * hs n1 n2 a (p - 1) (q + 1)) * Pr n1 n2 a p q := by
  have hn : (0 : ℚ) < n1 - p + 1 := by have : (p : ℚ) ≤ n1 := by exact_mod_cast h2
                                       linarith
  have hq : (0 : ℚ) < n2 - q := by have : (q : ℚ) + 1 ≤ n2 := by exact_mod_cast h4
                                   linarith
  have hq1 : (0 : ℚ) < q + 1 := by have : (0 : ℚ) ≤ q := by exact_mod_cast h3
                                   linarith
  have hp := Pr_of (a := a) (Pf_B h1 h2 h3 h4)
  unfold Tv
  refine scale (div_nonneg hn.le hq.le) hq.ne' ?_ ?_
  · have : ((n2 : ℚ) - (-n2 + 2 * q)) * (n2 + (-n2 + 2 * q) + 2) = 4 * ((n2 - q) * (q + 1)) := by ring
    rw [this]; positivity
  · linear_combination 4 * (n1 - p + 1) * (n2 - q) * hp

theorem hs_low {p q : ℤ} (h1 : q + 1 ≤ n2) (h2 : p + q = a) : hs n1 n2 a p q =
    1 / (n2 - q) * hs n1 n2 a p (q + 1) - (n1 - p + 1) / (n2 - q) * hs n1 n2 a (p - 1) (q + 1) := by
  have hq : (0 : ℚ) < n2 - q := by have : (q : ℚ) + 1 ≤ n2 := by exact_mod_cast h1
                                   linarith
  have hl := hs_raise (n1 := n1) (n2 := n2) (a := a) p (q + 1)
  rw [show q + 1 - 1 = q by ring] at hl
  have e : (p : ℚ) = a - q := by have : (p : ℚ) + q = a := by exact_mod_cast h2
                                 linarith
  push_cast at hl
  field_simp
  rw [e] at hl ⊢
  linear_combination -hl

end Rpwa.CgBox

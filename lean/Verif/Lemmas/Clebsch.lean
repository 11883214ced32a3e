import Verif.Model.Clebsch
import Verif.Spec.Clebsch
import Verif.Lemmas.Spin
import Verif.Lemmas.Leibniz
import Mathlib.Tactic.FieldSimp
import Mathlib.Tactic.Positivity
import Mathlib.Data.Nat.Choose.Cast
/-! Helper lemmas for the Clebsch-Gordan model. -/
namespace Rpwa.Clebsch
open Rpwa.Spin Finset

/-! ## cache addresses -/

theorem addr_bounds {j1 m1 j2 m2 J : ℤ} (h1 : 0 ≤ j1) (h1' : j1 < maxJ) (hm1 : -j1 ≤ m1 ∧ m1 ≤ j1)
    (h2 : 0 ≤ j2) (h2' : j2 < maxJ) (hm2 : -j2 ≤ m2 ∧ m2 ≤ j2) (hJ : 0 ≤ J) (hJ' : J < maxJ) :
    0 ≤ addr j1 m1 j2 m2 J ∧ addr j1 m1 j2 m2 J < cacheElems := by
  unfold addr cacheElems maxJ at *
  omega

theorem addr_inj {j1 m1 j2 m2 J j1' m1' j2' m2' J' : ℤ}
    (h1 : 0 ≤ j1) (h1' : j1 < maxJ) (hm1 : -j1 ≤ m1 ∧ m1 ≤ j1)
    (h2 : 0 ≤ j2) (h2' : j2 < maxJ) (hm2 : -j2 ≤ m2 ∧ m2 ≤ j2) (hJ : 0 ≤ J) (hJ' : J < maxJ)
    (k1 : 0 ≤ j1') (k1' : j1' < maxJ) (km1 : -j1' ≤ m1' ∧ m1' ≤ j1')
    (k2 : 0 ≤ j2') (k2' : j2' < maxJ) (km2 : -j2' ≤ m2' ∧ m2' ≤ j2') (kJ : 0 ≤ J') (kJ' : J' < maxJ)
    (h : addr j1 m1 j2 m2 J = addr j1' m1' j2' m2' J') :
    j1 = j1' ∧ m1 = m1' ∧ j2 = j2' ∧ m2 = m2' ∧ J = J' := by
  unfold addr maxJ at *
  have e5 : J = J' := by omega
  subst e5
  have e : ((j1 * 35 + m1) * 18 + j2) * 35 + m2 = ((j1' * 35 + m1') * 18 + j2') * 35 + m2' := by omega
  clear h
  have a : (j1 * 35 + m1) * 18 + j2 = (j1' * 35 + m1') * 18 + j2' := by omega
  have b : m2 = m2' := by omega
  have c : j2 = j2' := by omega
  have d : j1 * 35 + m1 = j1' * 35 + m1' := by omega
  have e : j1 = j1' := by omega
  omega

/-! ## the selection rules in natural-number coordinates -/

theorem selected_coords {j1 m1 j2 m2 J M : ℤ} (h : Selected j1 m1 j2 m2 J M) :
    ∃ a a' b b' r : ℕ, r ≤ a + a' ∧ r ≤ b + b' ∧ r ≤ a + b ∧ r ≤ a' + b' ∧
      j1 = a + a' ∧ m1 = a' - a ∧ j2 = b + b' ∧ m2 = b' - b ∧ J = a + a' + b + b' - 2 * r ∧
      M = a' + b' - a - b := by
  obtain ⟨⟨k1, e1, f1⟩, ⟨k2, e2, f2⟩, ⟨k3, e3, f3⟩, e4, t1, t2, t3, k, hk⟩ := h
  refine ⟨(j1 - k1).toNat, k1, (j2 - k2).toNat, k2, k.toNat, ?_, ?_, ?_, ?_, ?_, ?_, ?_, ?_, ?_, ?_⟩ <;> omega

theorem coords_selected (a a' b b' r : ℕ) (h1 : r ≤ a + a') (h2 : r ≤ b + b') (h3 : r ≤ a + b)
    (h4 : r ≤ a' + b') :
    Selected (a + a') (a' - a) (b + b') (b' - b) (a + a' + b + b' - 2 * r) (a' + b' - a - b) := by
  refine ⟨⟨a', by omega, by omega⟩, ⟨b', by omega, by omega⟩, ⟨a' + b' - r, by omega, by omega⟩, by omega,
    by omega, by omega, by omega, r, by omega⟩

theorem checks_iff (j1 m1 j2 m2 J M : ℤ) :
    Selected j1 m1 j2 m2 J M ↔
      (spinAndProjAreCompatible j1 m1 = true ∧ spinAndProjAreCompatible j2 m2 = true ∧
        spinAndProjAreCompatible J M = true) ∧ spinStatesCanCouple j1 j2 J = true ∧ m1 + m2 = M := by
  have hp : ∀ s m : ℤ, spinAndProjAreCompatible s m = true ↔ Proj s m := by
    intro s m
    unfold spinAndProjAreCompatible Proj
    simp only [Bool.and_eq_true, decide_eq_true_eq, isEven_iff]
    constructor
    · rintro ⟨⟨h1, h2⟩, h3⟩
      exact ⟨((m + s) / 2).toNat, by omega, by omega⟩
    · rintro ⟨k, h1, h2⟩
      omega
  have hc : 0 ≤ j1 → 0 ≤ j2 → (spinStatesCanCouple j1 j2 J = true ↔
      (j1 - j2 ≤ J ∧ j2 - j1 ≤ J ∧ J ≤ j1 + j2 ∧ ∃ k, j1 + j2 = J + 2 * k)) := by
    intro p1 p2
    exact canCouple_iff j1 j2 J p1 p2
  rw [hp, hp, hp]
  unfold Selected
  constructor
  · rintro ⟨a, b, c, d, e⟩
    have p1 : 0 ≤ j1 := by obtain ⟨k, h1, h2⟩ := a; omega
    have p2 : 0 ≤ j2 := by obtain ⟨k, h1, h2⟩ := b; omega
    exact ⟨⟨a, b, c⟩, (hc p1 p2).2 e, d⟩
  · rintro ⟨⟨a, b, c⟩, e, d⟩
    have p1 : 0 ≤ j1 := by obtain ⟨k, h1, h2⟩ := a; omega
    have p2 : 0 ≤ j2 := by obtain ⟨k, h1, h2⟩ := b; omega
    exact ⟨a, b, c, d, (hc p1 p2).1 e⟩

/-! ## the two loops -/

theorem fact_ok (n : ℕ) : fact (n : ℤ) = .ok (n.factorial : ℝ) := by
  unfold fact; simp

theorem nuStart_eq (a a' b b' : ℕ) (fuel : ℕ) (nu : ℕ) (hnu : nu ≤ b' - a) (hf : b' - a < nu + fuel) :
    nuStart (a + a') (a' - a) (b + b') (a' + b' - a - b) fuel nu = ((b' - a : ℕ) : ℤ) := by
  have e1 : ((a + a' : ℤ) - (b + b') - (a' + b' - a - b)).tdiv 2 = a - b' := by
    have : ((a + a' : ℤ) - (b + b') - (a' + b' - a - b)) = 2 * (a - b') := by ring
    rw [this, Int.mul_tdiv_cancel_left _ (by decide)]
  have e2 : ((a + a' : ℤ) - (a' - a)).tdiv 2 = a := by
    have : ((a + a' : ℤ) - (a' - a)) = 2 * a := by ring
    rw [this, Int.mul_tdiv_cancel_left _ (by decide)]
  induction fuel generalizing nu with
  | zero => omega
  | succ n ih =>
    unfold nuStart
    rw [e1, e2]
    by_cases h : nu < b' - a
    · have : (decide ((a : ℤ) - b' + nu < 0) || decide ((a : ℤ) + nu < 0)) = true := by
        simp; left; omega
      rw [if_pos this]
      have := ih (nu + 1) (by omega) (by omega)
      push_cast at this
      exact this
    · have : ¬ ((decide ((a : ℤ) - b' + nu < 0) || decide ((a : ℤ) + nu < 0)) = true) := by
        simp; omega
      rw [if_neg this]; omega

/-- the summand of Wigner's formula. -/
noncomputable def term (p a a' b' c' : ℕ) (nu : ℕ) : ℝ :=
  (-1) ^ (nu + b') * ((p + a' - nu).factorial : ℝ) * ((a + nu).factorial : ℝ) /
    ((nu.factorial : ℝ) * ((p - nu).factorial : ℝ) * ((c' - nu).factorial : ℝ) * ((a + nu - b').factorial : ℝ))

theorem powMinusOne_nat (n : ℕ) : ((powMinusOne (n : ℤ) : ℤ) : ℝ) = (-1) ^ n := by
  rcases Nat.even_or_odd n with h | h
  · rw [h.neg_one_pow]; unfold powMinusOne
    have : ((n : ℤ) % 2 == 1) = false := by obtain ⟨k, rfl⟩ := h; simp; omega
    rw [this]; simp
  · rw [h.neg_one_pow]; unfold powMinusOne
    have : ((n : ℤ) % 2 == 1) = true := by obtain ⟨k, rfl⟩ := h; simp
    rw [this]; simp

theorem sumLoop_eq (a a' b b' r p c' : ℕ) (hp : p + r = b + b') (hc : c' + r = a' + b')
    (fuel nu : ℕ) (s : ℝ) (hnu : b' ≤ a + nu) (hf : min p c' + 1 ≤ nu + fuel) :
    sumLoop (a + a') (a' - a) (b + b') (b' - b) (a + a' + b + b' - 2 * r) (a' + b' - a - b) fuel nu s =
      .ok (s + ∑ x ∈ Ico nu (min p c' + 1), term p a a' b' c' x) := by
  have e1 : ((a + a' + b + b' - 2 * r : ℤ) - (a + a') + (b + b')).tdiv 2 = p := by
    have : ((a + a' + b + b' - 2 * r : ℤ) - (a + a') + (b + b')) = 2 * p := by omega
    rw [this, Int.mul_tdiv_cancel_left _ (by decide)]
  have e2 : ((a + a' + b + b' - 2 * r : ℤ) + (a' + b' - a - b)).tdiv 2 = c' := by
    have : ((a + a' + b + b' - 2 * r : ℤ) + (a' + b' - a - b)) = 2 * c' := by omega
    rw [this, Int.mul_tdiv_cancel_left _ (by decide)]
  have e3 : ((b + b' : ℤ) + (a + a' + b + b' - 2 * r) + (a' - a)).tdiv 2 = p + a' := by
    have : ((b + b' : ℤ) + (a + a' + b + b' - 2 * r) + (a' - a)) = 2 * (p + a') := by omega
    rw [this, Int.mul_tdiv_cancel_left _ (by decide)]
  have e4 : ((a + a' : ℤ) - (b + b') - (a' + b' - a - b)).tdiv 2 = a - b' := by
    have : ((a + a' : ℤ) - (b + b') - (a' + b' - a - b)) = 2 * (a - b') := by ring
    rw [this, Int.mul_tdiv_cancel_left _ (by decide)]
  have e5 : ((a + a' : ℤ) - (a' - a)).tdiv 2 = a := by
    have : ((a + a' : ℤ) - (a' - a)) = 2 * a := by ring
    rw [this, Int.mul_tdiv_cancel_left _ (by decide)]
  have e6 : ((b + b' : ℤ) + (b' - b)).tdiv 2 = b' := by
    have : ((b + b' : ℤ) + (b' - b)) = 2 * b' := by ring
    rw [this, Int.mul_tdiv_cancel_left _ (by decide)]
  induction fuel generalizing nu s with
  | zero =>
    unfold sumLoop
    rw [Ico_eq_empty_of_le (by omega)]; simp
  | succ n ih =>
    unfold sumLoop
    simp only [e1, e2, e3, e4, e5, e6]
    by_cases h : nu ≤ min p c'
    · have hcond : (decide ((p : ℤ) - nu ≥ 0) && decide ((c' : ℤ) - nu ≥ 0) &&
          decide ((p + a' : ℤ) - nu ≥ 0)) = true := by simp; omega
      rw [if_pos hcond]
      have f1 : ((p + a' : ℤ) - nu) = ((p + a' - nu : ℕ) : ℤ) := by omega
      have f2 : ((a : ℤ) + nu) = ((a + nu : ℕ) : ℤ) := by omega
      have f3 : ((p : ℤ) - nu) = ((p - nu : ℕ) : ℤ) := by omega
      have f4 : ((c' : ℤ) - nu) = ((c' - nu : ℕ) : ℤ) := by omega
      have f5 : ((a : ℤ) - b' + nu) = ((a + nu - b' : ℕ) : ℤ) := by omega
      have f6 : ((nu : ℤ) + b') = ((nu + b' : ℕ) : ℤ) := by omega
      have f7 : ((nu : ℤ) + 1) = ((nu + 1 : ℕ) : ℤ) := by omega
      rw [f1, f2, f3, f4, f5, f6, f7]
      simp only [fact_ok, powMinusOne_nat]
      show sumLoop _ _ _ _ _ _ n ((nu + 1 : ℕ) : ℤ) _ = _
      rw [ih (nu + 1) _ (by omega) (by omega)]
      rw [sum_eq_sum_Ico_succ_bot (show nu < min p c' + 1 by omega)]
      unfold term
      rw [add_assoc]
    · have hcond : ¬ ((decide ((p : ℤ) - nu ≥ 0) && decide ((c' : ℤ) - nu ≥ 0) &&
          decide ((p + a' : ℤ) - nu ≥ 0)) = true) := by simp; omega
      rw [if_neg hcond, Ico_eq_empty_of_le (by omega)]; simp

/-! ## Wigner's sum equals Racah's sum -/

theorem choose_real {n k : ℕ} (h : k ≤ n) :
    (n.choose k : ℝ) = n.factorial / (k.factorial * (n - k).factorial) := Nat.cast_choose ℝ h

theorem wigner_sum_binomial (a a' b b' r p c' : ℕ) (hp : p + r = b + b') (hc : c' + r = a' + b')
 :
    ∑ x ∈ Ico (b' - a) (min p c' + 1), term p a a' b' c' x =
      (-1) ^ b' * ((a'.factorial : ℝ) * b'.factorial / c'.factorial) *
        ∑ i ∈ range (c' + 1), (c'.choose i : ℝ) *
          ((-1) ^ i * (((a + i).choose b' : ℝ) * ((p + a' - i).choose a' : ℝ))) := by
  have hsub : Ico (b' - a) (min p c' + 1) ⊆ range (c' + 1) := by
    intro x hx; simp only [mem_Ico, mem_range] at *; omega
  rw [← sum_subset hsub (f := fun i => (c'.choose i : ℝ) *
          ((-1) ^ i * (((a + i).choose b' : ℝ) * ((p + a' - i).choose a' : ℝ)))), mul_sum]
  · refine sum_congr rfl fun x hx => ?_
    simp only [mem_Ico] at hx
    rw [choose_real (show x ≤ c' by omega), choose_real (show b' ≤ a + x by omega),
      choose_real (show a' ≤ p + a' - x by omega)]
    unfold term
    have : p + a' - x - a' = p - x := by omega
    rw [this]
    have n1 : (c'.factorial : ℝ) ≠ 0 := by positivity
    have n2 : (a'.factorial : ℝ) ≠ 0 := by positivity
    have n3 : (b'.factorial : ℝ) ≠ 0 := by positivity
    rw [pow_add]
    field_simp
  · intro x hx hx'
    simp only [mem_range, mem_Ico, not_and_or, not_le, not_lt] at hx hx'
    rcases hx' with h | h
    · have : (a + x).choose b' = 0 := Nat.choose_eq_zero_of_lt (by omega)
      simp [this]
    · by_cases ha : 0 < a'
      · have : (p + a' - x).choose a' = 0 := Nat.choose_eq_zero_of_lt (by omega)
        simp [this]
      · omega

theorem wigner_eq_racah_sum (a a' b b' r p c' : ℕ) (hp : p + r = b + b') (hc : c' + r = a' + b')
 :
    ∑ x ∈ Ico (b' - a) (min p c' + 1), term p a a' b' c' x =
      (a.factorial : ℝ) * a'.factorial * b.factorial * b'.factorial *
      ∑ k ∈ range (r + 1), (-1) ^ k *
        (rfac 0 k * rfac (2 * r) (-k) * rfac (2 * a) (-k) * rfac (2 * b') (-k)
          * rfac (2 * (a' - r)) k * rfac (2 * (b - r)) k) := by
  rw [wigner_sum_binomial a a' b b' r p c' hp hc,
    Leibniz.wigner_racah_sum c' (p + a') a' a b' (by omega)]
  -- re-index i = b' - k
  have key : ∑ i ∈ range (c' + 1), (c'.choose i : ℝ) *
        ((if i ≤ b' then (-1) ^ i * (a.choose (b' - i) : ℝ) else 0) *
         (if c' - i ≤ a' then ((p + a' - c').choose (a' - (c' - i)) : ℝ) else 0)) =
      ∑ k ∈ range (r + 1), if k ≤ b' then (if b' - k ≤ c' then (if c' - (b' - k) ≤ a' then
        (c'.choose (b' - k) : ℝ) * ((-1) ^ (b' - k) * (a.choose k : ℝ)) *
          (b.choose (r - k) : ℝ) else 0) else 0) else 0 := by
    refine sum_bij_ne_zero (fun i _ _ => b' - i) ?_ ?_ ?_ ?_
    · intro i hi hne
      simp only [mem_range] at *
      by_cases h1 : i ≤ b'
      · by_cases h2 : c' - i ≤ a'
        · omega
        · simp [h2] at hne
      · simp [h1] at hne
    · intro i hi hne j hj hne' hij
      simp only [mem_range] at *
      by_cases h1 : i ≤ b'
      · by_cases h1' : j ≤ b'
        · omega
        · simp [h1'] at hne'
      · simp [h1] at hne
    · intro k hk hne
      simp only [mem_range] at *
      by_cases h1 : k ≤ b'
      · by_cases h2 : b' - k ≤ c'
        · by_cases h3 : c' - (b' - k) ≤ a'
          · refine ⟨b' - k, by omega, ?_, by omega⟩
            simp only [h1, h2, h3, if_true] at hne
            have e1 : b' - (b' - k) = k := by omega
            have e2 : b' - k ≤ b' := by omega
            have e3 : a' - (c' - (b' - k)) = r - k := by omega
            have e4 : p + a' - c' = b := by omega
            rw [e1, e3, e4, if_pos e2, if_pos h3]
            intro hz; apply hne; rw [← hz]; ring
          · simp [h3] at hne
        · simp [h2] at hne
      · simp [h1] at hne
    · intro i hi hne
      simp only [mem_range] at *
      by_cases h1 : i ≤ b'
      · by_cases h2 : c' - i ≤ a'
        · have e1 : b' - (b' - i) = i := by omega
          have e3 : a' - (c' - i) = r - (b' - i) := by omega
          have e4 : p + a' - c' = b := by omega
          have e5 : b' - i ≤ b' := by omega
          have e6 : i ≤ c' := by omega
          rw [e1, e3, e4, if_pos h1, if_pos h2, if_pos e5, if_pos e6, if_pos h2]
          ring
        · simp [h2] at hne
      · simp [h1] at hne
  rw [key, mul_sum, mul_sum]
  refine sum_congr rfl fun k hk => ?_
  simp only [mem_range] at hk
  have hk' : k ≤ r := by omega
  unfold rfac
  have d1 : (2 * (r : ℤ)) / 2 + -(k : ℤ) = ((r - k : ℕ) : ℤ) := by omega
  have d0 : (0 : ℤ) / 2 + (k : ℤ) = (k : ℤ) := by omega
  have d2 : (2 * (a : ℤ)) / 2 + -(k : ℤ) = (a : ℤ) - k := by omega
  have d3 : (2 * (b' : ℤ)) / 2 + -(k : ℤ) = (b' : ℤ) - k := by omega
  have d4 : (2 * ((a' : ℤ) - r)) / 2 + (k : ℤ) = (a' : ℤ) - r + k := by omega
  have d5 : (2 * ((b : ℤ) - r)) / 2 + (k : ℤ) = (b : ℤ) - r + k := by omega
  rw [d0, d1, d2, d3, d4, d5]
  by_cases h1 : k ≤ b'
  swap
  · rw [if_neg h1]
    have : (b' : ℤ) - k < 0 := by omega
    simp [this]
  rw [if_pos h1]
  by_cases h2 : b' - k ≤ c'
  swap
  · rw [if_neg h2]
    have : (a' : ℤ) - r + k < 0 := by omega
    simp [this]
  rw [if_pos h2, if_pos (show c' - (b' - k) ≤ a' by omega)]
  by_cases h3 : k ≤ a
  swap
  · have : a.choose k = 0 := Nat.choose_eq_zero_of_lt (by omega)
    have h : (a : ℤ) - k < 0 := by omega
    simp [this, h]
  by_cases h4 : r - k ≤ b
  swap
  · have : b.choose (r - k) = 0 := Nat.choose_eq_zero_of_lt (by omega)
    have h : (b : ℤ) - r + k < 0 := by omega
    simp [this, h]
  have g0 : ¬ ((k : ℤ) < 0) := by omega
  have g1 : ¬ (((r - k : ℕ) : ℤ) < 0) := by omega
  have g2 : ¬ ((a : ℤ) - k < 0) := by omega
  have g3 : ¬ ((b' : ℤ) - k < 0) := by omega
  have g4 : ¬ ((a' : ℤ) - r + k < 0) := by omega
  have g5 : ¬ ((b : ℤ) - r + k < 0) := by omega
  rw [if_neg g0, if_neg g1, if_neg g2, if_neg g3, if_neg g4, if_neg g5]
  have t0 : (k : ℤ).toNat = k := by omega
  have t1 : (((r - k : ℕ) : ℤ)).toNat = r - k := by omega
  have t2 : ((a : ℤ) - k).toNat = a - k := by omega
  have t3 : ((b' : ℤ) - k).toNat = b' - k := by omega
  have t4 : ((a' : ℤ) - r + k).toNat = c' - (b' - k) := by omega
  have t5 : ((b : ℤ) - r + k).toNat = b - (r - k) := by omega
  rw [t0, t1, t2, t3, t4, t5, choose_real h2, choose_real h3, choose_real h4]
  have sgn : (-1 : ℝ) ^ b' * (-1) ^ (b' - k) = (-1) ^ k := by
    obtain ⟨d, rfl⟩ : ∃ d, b' = d + k := ⟨b' - k, by omega⟩
    have : d + k - k = d := by omega
    rw [this, pow_add, mul_comm, ← mul_assoc, ← pow_add, ← two_mul, pow_mul]; simp
  have n1 : (c'.factorial : ℝ) ≠ 0 := by positivity
  rw [← sgn]
  field_simp

/-! ## the computed value is Racah's -/

theorem half (x : ℤ) : (2 * x) / 2 = x := by omega
theorem tdiv_two (x : ℤ) : (2 * x).tdiv 2 = x := Int.mul_tdiv_cancel_left _ (by decide)

theorem compute_coords (a a' b b' r : ℕ) (h1 : r ≤ a + a') (h2 : r ≤ b + b') (h3 : r ≤ a + b)
    (h4 : r ≤ a' + b') :
    compute (a + a') (a' - a) (b + b') (b' - b) (a + a' + b + b' - 2 * r) (a' + b' - a - b) =
      .ok (racah (a + a') (a' - a) (b + b') (b' - b) (a + a' + b + b' - 2 * r) (a' + b' - a - b)) := by
  obtain ⟨p, hp⟩ : ∃ p, p + r = b + b' := ⟨b + b' - r, by omega⟩
  obtain ⟨q, hq⟩ : ∃ q, q + r = a + a' := ⟨a + a' - r, by omega⟩
  obtain ⟨c', hc'⟩ : ∃ c', c' + r = a' + b' := ⟨a' + b' - r, by omega⟩
  obtain ⟨c, hc⟩ : ∃ c, c + r = a + b := ⟨a + b - r, by omega⟩
  unfold compute
  have hnu := nuStart_eq a a' b b' (((a + a' : ℤ) - (b + b') - (a' + b' - a - b)).natAbs
    + ((a + a' : ℤ) - (a' - a)).natAbs + 1) 0 (by omega) (by omega)
  simp only [Nat.cast_zero] at hnu
  rw [hnu]
  dsimp only
  rw [sumLoop_eq a a' b b' r p c' hp hc' _ (b' - a) 0 (by omega) (by omega)]
  rw [wigner_eq_racah_sum a a' b b' r p c' hp hc', zero_add]
  -- the right-hand side
  have hsel := coords_selected a a' b b' r h1 h2 h3 h4
  rw [racah, if_pos hsel]
  set S := ∑ k ∈ range (r + 1), (-1 : ℝ) ^ k *
        (rfac 0 k * rfac (2 * r) (-k) * rfac (2 * a) (-k) * rfac (2 * b') (-k)
          * rfac (2 * (a' - r)) k * rfac (2 * (b - r)) k) with hS
  have r1 : (((a + a' : ℤ) + (b + b') - (a + a' + b + b' - 2 * r)).toNat / 2 + 1) = r + 1 := by omega
  have r2 : ((a + a' : ℤ) + (b + b') - (a + a' + b + b' - 2 * r)) = 2 * r := by ring
  have r3 : ((a + a' : ℤ) - (a' - a)) = 2 * a := by ring
  have r4 : ((b + b' : ℤ) + (b' - b)) = 2 * b' := by ring
  have r5 : ((a + a' + b + b' - 2 * r : ℤ) - (b + b') + (a' - a)) = 2 * (a' - r) := by ring
  have r6 : ((a + a' + b + b' - 2 * r : ℤ) - (a + a') - (b' - b)) = 2 * (b - r) := by ring
  have r7 : ((a + a' + b + b' - 2 * r : ℤ) + (a + a') - (b + b')) = 2 * q := by omega
  have r8 : ((a + a' + b + b' - 2 * r : ℤ) - (a + a') + (b + b')) = 2 * p := by omega
  have r9 : ((a + a' : ℤ) + (b + b') + (a + a' + b + b' - 2 * r) + 2) = 2 * ((p + q + r + 1 : ℕ) : ℤ) := by
    push_cast; omega
  have r9' : ((a + a' : ℤ) + (b + b') + (a + a' + b + b' - 2 * r)) = 2 * ((p + q + r : ℕ) : ℤ) := by
    push_cast; omega
  have r10 : ((a + a' + b + b' - 2 * r : ℤ) + (a' + b' - a - b)) = 2 * c' := by omega
  have r11 : ((a + a' + b + b' - 2 * r : ℤ) - (a' + b' - a - b)) = 2 * c := by omega
  have r12 : ((a + a' : ℤ) + (a' - a)) = 2 * a' := by ring
  have r13 : ((b + b' : ℤ) - (b' - b)) = 2 * b := by ring
  rw [r1, r9, r9', r2, r3, r4, r5, r6, r7, r8, r10, r11, r12, r13]
  have hJ : ((a + a' + b + b' - 2 * r : ℤ) + 1) = ((p + q + 1 : ℕ) : ℤ) := by push_cast; omega
  have hJ' : (((a + a' + b + b' - 2 * r : ℤ) : ℝ) + 1) = ((p + q + 1 : ℕ) : ℝ) := by
    have := congrArg (fun z : ℤ => (z : ℝ)) hJ
    push_cast at this ⊢; exact this
  simp only [tdiv_two, hfac, half, Int.toNat_natCast]
  rw [← hS]
  have f0 : ((p + q + r : ℕ) : ℤ) + 1 = ((p + q + r + 1 : ℕ) : ℤ) := by push_cast; ring
  rw [f0]
  simp only [fact_ok]
  simp only [bind, Outcome.bind, pure]
  rw [hJ', hJ]
  have pa : (0 : ℝ) < a.factorial := by positivity
  have pa' : (0 : ℝ) < a'.factorial := by positivity
  have pb : (0 : ℝ) < b.factorial := by positivity
  have pb' : (0 : ℝ) < b'.factorial := by positivity
  by_cases hz : (a.factorial : ℝ) * a'.factorial * b.factorial * b'.factorial * S = 0
  · rw [if_pos hz]
    have hS0 : S = 0 := by
      have hne : (a.factorial : ℝ) * a'.factorial * b.factorial * b'.factorial ≠ 0 := by positivity
      exact (mul_eq_zero.1 hz).resolve_left hne
    rw [hS0, mul_zero]
  · rw [if_neg hz]
    congr 1
    set U : ℝ := (((p + q + 1 : ℕ) : ℝ)) * q.factorial * p.factorial * r.factorial / (p + q + r + 1).factorial with hU
    have hA : (((p + q + 1 : ℕ) : ℤ) : ℝ) * (q.factorial : ℝ) * p.factorial * r.factorial * c'.factorial * c.factorial /
        ((p + q + r + 1).factorial * a.factorial * a'.factorial * b.factorial * b'.factorial) =
        U * ((c'.factorial : ℝ) * c.factorial * a.factorial * a'.factorial * b.factorial * b'.factorial) /
          ((a.factorial : ℝ) * a'.factorial * b.factorial * b'.factorial) ^ 2 := by
      rw [hU, Int.cast_natCast]
      field_simp
    rw [hA, Real.sqrt_div (by positivity), Real.sqrt_sq (by positivity), Real.sqrt_mul (by positivity)]
    have hne : (a.factorial : ℝ) * a'.factorial * b.factorial * b'.factorial ≠ 0 := by positivity
    field_simp

theorem compute_eq {j1 m1 j2 m2 J M : ℤ} (h : Selected j1 m1 j2 m2 J M) :
    compute j1 m1 j2 m2 J M = .ok (racah j1 m1 j2 m2 J M) := by
  obtain ⟨a, a', b, b', r, h1, h2, h3, h4, rfl, rfl, rfl, rfl, rfl, rfl⟩ := selected_coords h
  exact compute_coords a a' b b' r h1 h2 h3 h4

theorem selected_bounds {j1 m1 j2 m2 J M : ℤ} (h : Selected j1 m1 j2 m2 J M) :
    0 ≤ j1 ∧ (-j1 ≤ m1 ∧ m1 ≤ j1) ∧ 0 ≤ j2 ∧ (-j2 ≤ m2 ∧ m2 ≤ j2) ∧ 0 ≤ J := by
  obtain ⟨a, a', b, b', r, h1, h2, h3, h4, rfl, rfl, rfl, rfl, rfl, rfl⟩ := selected_coords h
  omega

/-- Cache invariant: every stored value is the coefficient of a request whose cell it is. -/
def Inv (s : State) : Prop :=
  ∀ x v, s.mem x = some v → ∃ j1 m1 j2 m2 J, Selected j1 m1 j2 m2 J (m1 + m2) ∧
    j1 < maxJ ∧ j2 < maxJ ∧ J < maxJ ∧ x = addr j1 m1 j2 m2 J ∧ v = racah j1 m1 j2 m2 J (m1 + m2)

theorem inv_init : Inv init := by intro x v h; simp [init] at h

theorem call_spec (s : State) (hs : Inv s) (j1 m1 j2 m2 J M : ℤ) :
    (s.useCache = true ∧ (maxJ ≤ j1 ∨ maxJ ≤ j2 ∨ maxJ ≤ J) ∧
        call s j1 m1 j2 m2 J M = .terminate) ∨
    (¬ (s.useCache = true ∧ (maxJ ≤ j1 ∨ maxJ ≤ j2 ∨ maxJ ≤ J)) ∧
        ∃ s', call s j1 m1 j2 m2 J M = .ok (racah j1 m1 j2 m2 J M, s') ∧ Inv s' ∧
          s'.useCache = s.useCache) := by
  by_cases ht : s.useCache = true ∧ (maxJ ≤ j1 ∨ maxJ ≤ j2 ∨ maxJ ≤ J)
  · left
    refine ⟨ht.1, ht.2, ?_⟩
    unfold call
    rw [if_pos]
    simp only [ht.1, Bool.true_and, Bool.or_eq_true, decide_eq_true_eq]
    rcases ht.2 with h | h | h <;> simp [h]
  · right
    refine ⟨ht, ?_⟩
    unfold call
    rw [if_neg (by
      intro hh
      apply ht
      simp only [Bool.and_eq_true, Bool.or_eq_true, decide_eq_true_eq] at hh
      refine ⟨hh.1, ?_⟩
      rcases hh.2 with (h | h) | h
      · exact Or.inl h
      · exact Or.inr (Or.inl h)
      · exact Or.inr (Or.inr h))]
    by_cases hsel : Selected j1 m1 j2 m2 J M
    swap
    · have h0 : racah j1 m1 j2 m2 J M = 0 := by rw [racah, if_neg hsel]
      rw [h0]
      rw [checks_iff] at hsel
      by_cases g1 : (!spinAndProjAreCompatible j1 m1 || !spinAndProjAreCompatible j2 m2
        || !spinAndProjAreCompatible J M) = true
      · rw [if_pos g1]; exact ⟨s, rfl, hs, rfl⟩
      · rw [if_neg g1]
        by_cases g2 : (!spinStatesCanCouple j1 j2 J) = true
        · rw [if_pos g2]; exact ⟨s, rfl, hs, rfl⟩
        · rw [if_neg g2]
          by_cases g3 : m1 + m2 ≠ M
          · rw [if_pos g3]; exact ⟨s, rfl, hs, rfl⟩
          · exfalso
            apply hsel
            simp at g1 g2 g3
            exact ⟨⟨g1.1.1, g1.1.2, g1.2⟩, g2, g3⟩
    · have hc := (checks_iff j1 m1 j2 m2 J M).1 hsel
      rw [if_neg (by simp [hc.1.1, hc.1.2.1, hc.1.2.2]), if_neg (by simp [hc.2.1]), if_neg (by simp [hc.2.2])]
      by_cases hu : s.useCache = true
      · rw [if_pos hu]
        have hj1 : j1 < maxJ := by by_contra h; exact ht ⟨hu, Or.inl (not_lt.1 h)⟩
        have hj2 : j2 < maxJ := by by_contra h; exact ht ⟨hu, Or.inr (Or.inl (not_lt.1 h))⟩
        have hJ : J < maxJ := by by_contra h; exact ht ⟨hu, Or.inr (Or.inr (not_lt.1 h))⟩
        have hb := selected_bounds hsel
        have hab := addr_bounds hb.1 hj1 hb.2.1 hb.2.2.1 hj2 hb.2.2.2.1 hb.2.2.2.2 hJ
        simp only []
        rw [if_neg (by simp; omega)]
        have hM : M = m1 + m2 := hc.2.2.symm
        cases hmem : s.mem (addr j1 m1 j2 m2 J) with
        | some v =>
          refine ⟨s, ?_, hs, rfl⟩
          obtain ⟨k1, n1, k2, n2, K, hsel', q1, q2, q3, hx, hv⟩ := hs _ _ hmem
          have hb' := selected_bounds hsel'
          obtain ⟨rfl, rfl, rfl, rfl, rfl⟩ := addr_inj hb.1 hj1 hb.2.1 hb.2.2.1 hj2 hb.2.2.2.1 hb.2.2.2.2 hJ
            hb'.1 q1 hb'.2.1 hb'.2.2.1 q2 hb'.2.2.2.1 hb'.2.2.2.2 q3 hx
          rw [hv, hM]
        | none =>
          rw [compute_eq hsel]
          simp only [bind, Outcome.bind, pure]
          by_cases hz : racah j1 m1 j2 m2 J M = 0
          · rw [if_pos hz, hz]; exact ⟨s, rfl, hs, rfl⟩
          · rw [if_neg hz]
            refine ⟨_, rfl, ?_, rfl⟩
            intro x v hxv
            simp only at hxv
            by_cases hxa : x = addr j1 m1 j2 m2 J
            · rw [if_pos hxa] at hxv
              refine ⟨j1, m1, j2, m2, J, ?_, hj1, hj2, hJ, hxa, ?_⟩
              · rw [← hM]; exact hsel
              · rw [← hM]; exact (Option.some.inj hxv).symm
            · rw [if_neg hxa] at hxv; exact hs x v hxv
      · rw [if_neg hu, compute_eq hsel]
        exact ⟨s, rfl, hs, rfl⟩

theorem inv_run (ops : List Op) (s s' : State) (hs : Inv s) (h : run s ops = some s') : Inv s' := by
  induction ops generalizing s with
  | nil => simp [run] at h; rw [← h]; exact hs
  | cons o os ih =>
    simp only [run] at h
    cases hstep : step s o with
    | none => rw [hstep] at h; simp at h
    | some t =>
      rw [hstep] at h
      refine ih t ?_ h
      cases o with
      | setUseCache b => simp [step] at hstep; rw [← hstep]; exact hs
      | request j1 m1 j2 m2 J M =>
        simp only [step] at hstep
        rcases call_spec s hs j1 m1 j2 m2 J M with ⟨_, _, ht⟩ | ⟨_, t', ht, hi, _⟩
        · rw [ht] at hstep; simp at hstep
        · rw [ht] at hstep; simp at hstep; rw [← hstep]; exact hi

end Rpwa.Clebsch

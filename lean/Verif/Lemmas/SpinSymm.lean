import Verif.Spec.DFunction
import Verif.Spec.Clebsch
import Mathlib.Algebra.BigOperators.Finprod
import Mathlib.Algebra.BigOperators.Intervals
import Mathlib.Tactic.Ring
import Mathlib.Tactic.Linarith
import Mathlib.Tactic.Push

/-!
# Symmetries of the Wigner d-function and of the Clebsch-Gordan coefficients

From the textbook formulas of `Spec/DFunction.lean` and `Spec/Clebsch.lean`.
-/

namespace Rpwa.DFunction

open Finset

theorem sum_range_finsum (f : ℤ → ℝ) (n : ℕ) (h : ∀ s, f s ≠ 0 → 0 ≤ s ∧ s < n) :
    ∑ s ∈ range n, f (s : ℤ) = ∑ᶠ s, f s := by
  rw [finsum_eq_sum_of_support_subset f (s := (range n).map Nat.castEmbedding)]
  · rw [sum_map]; rfl
  · intro s hs
    obtain ⟨h0, h1⟩ := h s hs
    rw [coe_map, Set.mem_image]
    exact ⟨s.toNat, by rw [coe_range]; show s.toNat < n; omega, by
      show ((s.toNat : ℕ) : ℤ) = s; omega⟩

/-- summand of Wigner's formula -/
noncomputable def wTerm (j m n : ℤ) (c s : ℝ) (k : ℤ) : ℝ :=
  (-1) ^ ((m - n) / 2 + k) * c ^ (j + (n - m) / 2 - 2 * k) * s ^ ((m - n) / 2 + 2 * k)
    * (rfac ((j + n) / 2 - k) * rfac k * rfac ((m - n) / 2 + k) * rfac ((j - m) / 2 - k))

theorem rfac_ne {n : ℤ} (h : rfac n ≠ 0) : 0 ≤ n := by
  by_contra hc
  exact h (if_pos (by omega))

theorem wTerm_support {j m n : ℤ} (hm : Proj j m) (c s : ℝ) (k : ℤ) (h : wTerm j m n c s k ≠ 0) :
    0 ≤ k ∧ k < ((j.toNat + 1 : ℕ) : ℤ) := by
  obtain ⟨i, hi, hij⟩ := hm
  unfold wTerm at h
  have h4 := right_ne_zero_of_mul h
  have h3 := left_ne_zero_of_mul h4
  have h2 := left_ne_zero_of_mul h3
  have a := rfac_ne (right_ne_zero_of_mul h2)
  have b := rfac_ne (right_ne_zero_of_mul h4)
  omega

theorem wignerD_finsum {j m n : ℤ} (hm : Proj j m) (θ : ℝ) : wignerD j m n θ =
    Real.sqrt (fac ((j + m) / 2) * fac ((j - m) / 2) * fac ((j + n) / 2) * fac ((j - n) / 2)) *
      ∑ᶠ k, wTerm j m n (Real.cos (θ / 2)) (Real.sin (θ / 2)) k := by
  unfold wignerD
  rw [← sum_range_finsum _ _ (wTerm_support hm _ _)]
  rfl

theorem Proj.neg {j m : ℤ} (h : Proj j m) : Proj j (-m) := by
  obtain ⟨k, hk, hl⟩ := h
  exact ⟨(j - k).toNat, by omega, by omega⟩

theorem negOne_sq (k : ℤ) : ((-1 : ℝ) ^ k) * (-1) ^ k = 1 := by
  rw [← mul_zpow]; norm_num

/-- `d^j_{-m -n} = (-1)^{m-n} d^j_{m n}` -/
theorem wignerD_neg {j m n : ℤ} (hm : Proj j m) (hn : Proj j n) (θ : ℝ) :
    wignerD j (-m) (-n) θ = (-1) ^ ((m - n) / 2) * wignerD j m n θ := by
  rw [wignerD_finsum hm.neg, wignerD_finsum hm]
  have e : ∀ k, wTerm j (-m) (-n) (Real.cos (θ / 2)) (Real.sin (θ / 2)) (k + (m - n) / 2) =
      (-1) ^ ((m - n) / 2) * wTerm j m n (Real.cos (θ / 2)) (Real.sin (θ / 2)) k := by
    intro k
    obtain ⟨a, ha, -⟩ := hm
    obtain ⟨b, hb, -⟩ := hn
    unfold wTerm
    have e1 : (-m - -n) / 2 + (k + (m - n) / 2) = k := by omega
    have e2 : j + (-n - -m) / 2 - 2 * (k + (m - n) / 2) = j + (n - m) / 2 - 2 * k := by omega
    have e3 : (-m - -n) / 2 + 2 * (k + (m - n) / 2) = (m - n) / 2 + 2 * k := by omega
    have e4 : (j + -n) / 2 - (k + (m - n) / 2) = (j - m) / 2 - k := by omega
    have e5 : (j - -m) / 2 - (k + (m - n) / 2) = (j + n) / 2 - k := by omega
    have e6 : k + (m - n) / 2 = (m - n) / 2 + k := by omega
    rw [e1, e2, e3, e4, e5, e6, zpow_add₀ (by norm_num : (-1 : ℝ) ≠ 0)]
    linear_combination (-(-1 : ℝ) ^ k * Real.cos (θ / 2) ^ (j + (n - m) / 2 - 2 * k) *
      Real.sin (θ / 2) ^ ((m - n) / 2 + 2 * k) * (rfac ((j - m) / 2 - k) * rfac ((m - n) / 2 + k) * rfac k *
        rfac ((j + n) / 2 - k))) * negOne_sq ((m - n) / 2)
  rw [← finsum_comp_equiv (Equiv.addRight ((m - n) / 2))]
  simp only [Equiv.coe_addRight, e]
  rw [← mul_finsum]
  · have e1 : (j + -m) = j - m := by ring
    have e2 : (j - -m) = j + m := by ring
    have e3 : (j + -n) = j - n := by ring
    have e4 : (j - -n) = j + n := by ring
    rw [e1, e2, e3, e4]
    have : fac ((j - m) / 2) * fac ((j + m) / 2) * fac ((j - n) / 2) * fac ((j + n) / 2) =
      fac ((j + m) / 2) * fac ((j - m) / 2) * fac ((j + n) / 2) * fac ((j - n) / 2) := by ring
    rw [this]
    ring

/-- `d^j_{m n}(π - θ) = (-1)^{j + m} d^j_{m -n}(θ)` for integer spins -/
theorem wignerD_pi_sub {j m n : ℤ} (hm : Proj j m) (hn : Proj j n) (hj : 2 ∣ j) (θ : ℝ) :
    wignerD j m n (Real.pi - θ) = (-1) ^ ((j + m) / 2) * wignerD j m (-n) θ := by
  rw [wignerD_finsum hm, wignerD_finsum hm]
  have hc : Real.cos ((Real.pi - θ) / 2) = Real.sin (θ / 2) := by
    rw [← Real.cos_pi_div_two_sub]; congr 1; ring
  have hs : Real.sin ((Real.pi - θ) / 2) = Real.cos (θ / 2) := by
    rw [← Real.sin_pi_div_two_sub]; congr 1; ring
  rw [hc, hs]
  have e : ∀ k, wTerm j m n (Real.sin (θ / 2)) (Real.cos (θ / 2)) ((j - m) / 2 - k) =
      (-1) ^ ((j + m) / 2) * wTerm j m (-n) (Real.cos (θ / 2)) (Real.sin (θ / 2)) k := by
    intro k
    obtain ⟨i, hi⟩ := hj
    obtain ⟨a, ha, -⟩ := hm
    obtain ⟨b, hb, -⟩ := hn
    unfold wTerm
    have e2 : j + (n - m) / 2 - 2 * ((j - m) / 2 - k) = (m - -n) / 2 + 2 * k := by omega
    have e3 : (m - n) / 2 + 2 * ((j - m) / 2 - k) = j + (-n - m) / 2 - 2 * k := by omega
    have e4 : (j + n) / 2 - ((j - m) / 2 - k) = (m - -n) / 2 + k := by omega
    have e5 : (m - n) / 2 + ((j - m) / 2 - k) = (j + -n) / 2 - k := by omega
    have e6 : (j - m) / 2 - ((j - m) / 2 - k) = k := by omega
    rw [e6, e2, e3, e4, e5]
    have hs1 : (-1 : ℝ) ^ ((j + -n) / 2 - k) = (-1) ^ ((j + m) / 2) * (-1) ^ ((m - -n) / 2 + k) := by
      have hx : (j + m) / 2 + ((m - -n) / 2 + k) = (j + -n) / 2 - k + 2 * (m / 2 + n / 2 + k) := by omega
      rw [← zpow_add₀ (by norm_num : (-1 : ℝ) ≠ 0), hx, zpow_add₀ (by norm_num : (-1 : ℝ) ≠ 0), zpow_mul]
      norm_num
    rw [hs1]
    ring
  rw [← finsum_comp_equiv (Equiv.subLeft ((j - m) / 2))]
  simp only [Equiv.subLeft_apply, e]
  rw [← mul_finsum]
  · have e3 : (j + -n) = j - n := by ring
    have e4 : (j - -n) = j + n := by ring
    rw [e3, e4]
    have : fac ((j + m) / 2) * fac ((j - m) / 2) * fac ((j - n) / 2) * fac ((j + n) / 2) =
      fac ((j + m) / 2) * fac ((j - m) / 2) * fac ((j + n) / 2) * fac ((j - n) / 2) := by ring
    rw [this]
    ring

end Rpwa.DFunction

namespace Rpwa.Clebsch

open Finset

theorem Proj.neg {j m : ℤ} (h : Proj j m) : Proj j (-m) := by
  obtain ⟨k, hk, hl⟩ := h
  exact ⟨(j - k).toNat, by omega, by omega⟩

theorem Selected.neg {j1 m1 j2 m2 J M : ℤ} (h : Selected j1 m1 j2 m2 J M) : Selected j1 (-m1) j2 (-m2) J (-M) := by
  obtain ⟨h1, h2, h3, h4, h5⟩ := h
  exact ⟨h1.neg, h2.neg, h3.neg, by omega, h5⟩

theorem rfac_congr {n n' k k' : ℤ} (h : n / 2 + k = n' / 2 + k') : rfac n k = rfac n' k' := by
  unfold rfac; rw [h]

/-- `(j1 -m1 j2 -m2 | J -M) = (-1)^{j1 + j2 - J} (j1 m1 j2 m2 | J M)` -/
theorem racah_neg (j1 m1 j2 m2 J M : ℤ) :
    racah j1 (-m1) j2 (-m2) J (-M) = (-1) ^ ((j1 + j2 - J) / 2) * racah j1 m1 j2 m2 J M := by
  unfold racah
  by_cases h : Selected j1 m1 j2 m2 J M
  · rw [if_pos h, if_pos h.neg]
    obtain ⟨⟨a1, ha1, _⟩, ⟨a2, ha2, _⟩, ⟨a3, ha3, _⟩, hM, t1, t2, t3, ⟨k0, hk0⟩⟩ := h
    have e1 : J + -M = J - M := by ring
    have e2 : J - -M = J + M := by ring
    have e3 : j1 - -m1 = j1 + m1 := by ring
    have e4 : j1 + -m1 = j1 - m1 := by ring
    have e5 : j2 - -m2 = j2 + m2 := by ring
    have e6 : j2 + -m2 = j2 - m2 := by ring
    have hn : ((j1 + j2 - J).toNat / 2 : ℕ) = k0.toNat := by omega
    have hsum : (∑ k ∈ range ((j1 + j2 - J).toNat / 2 + 1),
        (-1 : ℝ) ^ k * (rfac 0 k * rfac (j1 + j2 - J) (-k) * rfac (j1 + m1) (-k) * rfac (j2 - m2) (-k)
          * rfac (J - j2 + -m1) k * rfac (J - j1 - -m2) k)) = (-1) ^ ((j1 + j2 - J) / 2) *
        ∑ k ∈ range ((j1 + j2 - J).toNat / 2 + 1),
        (-1 : ℝ) ^ k * (rfac 0 k * rfac (j1 + j2 - J) (-k) * rfac (j1 - m1) (-k) * rfac (j2 + m2) (-k)
          * rfac (J - j2 + m1) k * rfac (J - j1 - m2) k) := by
      rw [← sum_range_reflect, mul_sum]
      refine sum_congr rfl fun k hk => ?_
      rw [mem_range] at hk
      rw [hn] at hk ⊢
      have hkk : k0.toNat + 1 - 1 - k = k0.toNat - k := by omega
      rw [hkk]
      have c1 : ((k0.toNat - k : ℕ) : ℤ) = k0 - k := by omega
      rw [c1]
      rw [rfac_congr (n := 0) (k := k0 - k) (n' := j1 + j2 - J) (k' := -k) (by omega),
        rfac_congr (n := j1 + j2 - J) (k := -(k0 - k)) (n' := 0) (k' := k) (by omega),
        rfac_congr (n := j1 + m1) (k := -(k0 - k)) (n' := J - j2 + m1) (k' := k) (by omega),
        rfac_congr (n := j2 - m2) (k := -(k0 - k)) (n' := J - j1 - m2) (k' := k) (by omega),
        rfac_congr (n := J - j2 + -m1) (k := k0 - k) (n' := j1 - m1) (k' := -k) (by omega),
        rfac_congr (n := J - j1 - -m2) (k := k0 - k) (n' := j2 + m2) (k' := -k) (by omega)]
      have hs : (-1 : ℝ) ^ (k0.toNat - k) = (-1) ^ ((j1 + j2 - J) / 2) * (-1) ^ k := by
        have : (j1 + j2 - J) / 2 = ((k0.toNat - k : ℕ) : ℤ) + (k : ℕ) := by omega
        rw [this, zpow_add₀ (by norm_num : (-1 : ℝ) ≠ 0), zpow_natCast, zpow_natCast, mul_assoc, ← mul_pow]
        norm_num
      rw [hs]
      ring
    rw [e1, e2, e3, e4, e5, e6, hsum]
    have hsq : hfac (J - M) * hfac (J + M) * hfac (j1 + m1) * hfac (j1 - m1) * hfac (j2 + m2) * hfac (j2 - m2) =
      hfac (J + M) * hfac (J - M) * hfac (j1 - m1) * hfac (j1 + m1) * hfac (j2 - m2) * hfac (j2 + m2) := by ring
    rw [hsq]
    ring
  · rw [if_neg h, if_neg, mul_zero]
    intro hc
    apply h
    have := hc.neg
    rwa [neg_neg, neg_neg, neg_neg] at this

end Rpwa.Clebsch

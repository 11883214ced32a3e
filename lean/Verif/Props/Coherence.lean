import Verif.Props.SpinDensity
import Mathlib.Algebra.Order.BigOperators.Ring.Finset
import Mathlib.Analysis.InnerProductSpace.PiL2
import Mathlib.Tactic.Linarith
import Mathlib.Tactic.Positivity
/-!
# C32: coherence and phase -/
namespace Rpwa.Fit

open Finset

variable {rx : Name → Name → Bool} {r : FitResult} {labels : List Label}

/-- Cauchy-Schwarz for complex sums. -/
theorem normSq_sum_le (K : ℕ) (a b : ℕ → ℂ) :
    Complex.normSq (∑ k ∈ range K, a k * (starRingEnd ℂ) (b k)) ≤ (∑ k ∈ range K, Complex.normSq (a k)) * ∑ k ∈ range K, Complex.normSq (b k) := by
  have h1 : ‖∑ k ∈ range K, a k * (starRingEnd ℂ) (b k)‖ ≤ ∑ k ∈ range K, ‖a k‖ * ‖b k‖ := by
    refine (norm_sum_le _ _).trans_eq (sum_congr rfl fun k _ => ?_)
    rw [norm_mul, RCLike.norm_conj]
  have h2 := sum_mul_sq_le_sq_mul_sq (range K) (fun k => ‖a k‖) (fun k => ‖b k‖)
  simp only [Complex.normSq_eq_norm_sq]
  calc _ ≤ (∑ k ∈ range K, ‖a k‖ * ‖b k‖) ^ 2 := by gcongr
    _ ≤ _ := h2

/-- the diagonal element. -/
theorem diag_re (N K : ℕ) (a : ℕ → ℂ) : ((N : ℂ) * ∑ k ∈ range K, a k * (starRingEnd ℂ) (a k)).re = N * ∑ k ∈ range K, Complex.normSq (a k) := by
  rw [sum_congr rfl fun k _ => Complex.mul_conj _, ← Complex.ofReal_sum, ← Complex.ofReal_natCast, ← Complex.ofReal_mul, Complex.ofReal_re]

/-- value of the coherence. -/
theorem coherence_eq (hrx : LiteralRx rx) (hL : Labelled r labels) (K : ℕ) (hK : ∀ l ∈ labels, l.rank < K) {i j : ℕ} {A B : Wave}
    (hi : IsWave r labels i A) (hj : IsWave r labels j B) :
    r.coherence rx i j = .ok (Real.sqrt (Complex.normSq (if A.refl = B.refl then
      (r.normNmbEvents : ℂ) * ∑ k ∈ range K, ampOf r labels A k * (starRingEnd ℂ) (ampOf r labels B k) else 0) /
      (((r.normNmbEvents : ℝ) * ∑ k ∈ range K, Complex.normSq (ampOf r labels A k)) *
        ((r.normNmbEvents : ℝ) * ∑ k ∈ range K, Complex.normSq (ampOf r labels B k))))) := by
  unfold FitResult.coherence
  rw [spinDensityMatrixElem_eq_partial hrx hL K hK hi hi, spinDensityMatrixElem_eq_partial hrx hL K hK hj hj, spinDensityMatrixElem_eq_partial hrx hL K hK hi hj]
  simp only [Outcome.ok_bind, if_true, diag_re]

/-- the coherence of two waves lies between 0 and 1. -/
theorem coherence_mem_unit_partial (hrx : LiteralRx rx) (hL : Labelled r labels) {i j : ℕ} (hi : i < r.waveNames.length) (hj : j < r.waveNames.length) :
    ∃ x, r.coherence rx i j = .ok x ∧ 0 ≤ x ∧ x ≤ 1 := by
  obtain ⟨K, hK⟩ := exists_rank_bound labels
  obtain ⟨A, hA⟩ := exists_isWave hL hi
  obtain ⟨B, hB⟩ := exists_isWave hL hj
  refine ⟨_, coherence_eq hrx hL K hK hA hB, Real.sqrt_nonneg _, ?_⟩
  refine Real.sqrt_le_iff.2 ⟨zero_le_one, ?_⟩
  rw [one_pow]
  set a := ampOf r labels A
  set b := ampOf r labels B
  have h0 : 0 ≤ ((r.normNmbEvents : ℝ) * ∑ k ∈ range K, Complex.normSq (a k)) * ((r.normNmbEvents : ℝ) * ∑ k ∈ range K, Complex.normSq (b k)) :=
    mul_nonneg (mul_nonneg (Nat.cast_nonneg _) (sum_nonneg fun k _ => Complex.normSq_nonneg _))
      (mul_nonneg (Nat.cast_nonneg _) (sum_nonneg fun k _ => Complex.normSq_nonneg _))
  refine div_le_one_of_le₀ ?_ h0
  split
  · rw [Complex.normSq_mul, Complex.normSq_natCast]
    have := normSq_sum_le K a b
    have hN : (0 : ℝ) ≤ (r.normNmbEvents : ℝ) * r.normNmbEvents := by positivity
    calc _ ≤ (r.normNmbEvents : ℝ) * r.normNmbEvents * ((∑ k ∈ range K, Complex.normSq (a k)) * ∑ k ∈ range K, Complex.normSq (b k)) :=
          mul_le_mul_of_nonneg_left this hN
      _ = _ := by ring
  · rw [map_zero]; exact h0

/-- it does not depend on the order of the waves. -/
theorem coherence_comm (hrx : LiteralRx rx) (hL : Labelled r labels) {i j : ℕ} (hi : i < r.waveNames.length) (hj : j < r.waveNames.length) :
    r.coherence rx i j = r.coherence rx j i := by
  obtain ⟨z, h1, h2⟩ := spinDensityMatrixElem_hermitian hrx hL hi hj
  obtain ⟨a, ha, _⟩ := spinDensityMatrixElem_hermitian hrx hL hi hi
  obtain ⟨b, hb, _⟩ := spinDensityMatrixElem_hermitian hrx hL hj hj
  unfold FitResult.coherence
  rw [h1, h2, ha, hb]
  simp only [Outcome.ok_bind, Complex.normSq_conj]
  rw [mul_comm]

/-- in a rank-one fit waves of equal reflectivity with non-vanishing amplitudes are fully coherent. -/
theorem coherence_rank_one (hrx : LiteralRx rx) (hL : Labelled r labels) (h1 : ∀ l ∈ labels, l.rank = 0) (hN : 0 < r.normNmbEvents)
    {i j : ℕ} {A B : Wave} (hi : IsWave r labels i A) (hj : IsWave r labels j B) (hr : A.refl = B.refl) (hA : ampOf r labels A 0 ≠ 0)
    (hB : ampOf r labels B 0 ≠ 0) : r.coherence rx i j = .ok 1 := by
  rw [coherence_eq hrx hL 1 (fun l hl => by rw [h1 l hl]; exact Nat.one_pos) hi hj, if_pos hr]
  refine congrArg Outcome.ok ?_
  simp only [range_one, sum_singleton, Complex.normSq_mul, Complex.normSq_conj, Complex.normSq_natCast]
  have n1 : Complex.normSq (ampOf r labels A 0) ≠ 0 := fun h => hA (Complex.normSq_eq_zero.1 h)
  have n2 : Complex.normSq (ampOf r labels B 0) ≠ 0 := fun h => hB (Complex.normSq_eq_zero.1 h)
  have n3 : (r.normNmbEvents : ℝ) ≠ 0 := by exact_mod_cast hN.ne'
  rw [Real.sqrt_eq_one]
  field_simp

/-- waves of different reflectivity do not interfere: coherence and overlap vanish. -/
theorem no_interference (hrx : LiteralRx rx) (hL : Labelled r labels) {i j : ℕ} {A B : Wave} (hi : IsWave r labels i A)
    (hj : IsWave r labels j B) (hr : A.refl ≠ B.refl) : r.coherence rx i j = .ok 0 ∧ r.overlap rx i j = .ok 0 := by
  obtain ⟨K, hK⟩ := exists_rank_bound labels
  rw [coherence_eq hrx hL K hK hi hj, if_neg hr]
  unfold FitResult.overlap
  rw [spinDensityMatrixElem_eq_partial hrx hL K hK hi hj, if_neg hr]
  simp

/-- the phase is between -180 and 180 degrees; exchanging the waves changes its sign (unless it is 180 degrees, which is
kept); it is the phase of the spin-density element. -/
theorem phase_comm (hrx : LiteralRx rx) (hL : Labelled r labels) {i j : ℕ} (hi : i < r.waveNames.length) (hj : j < r.waveNames.length) :
    ∃ x, r.phase rx i j = .ok x ∧ -180 < x ∧ x ≤ 180 ∧ r.phase rx j i = .ok (if x = 180 then 180 else -x) := by
  by_cases hij : i = j
  · subst hij
    refine ⟨0, by unfold FitResult.phase; rw [if_pos rfl], by norm_num, by norm_num, ?_⟩
    unfold FitResult.phase
    rw [if_pos rfl]; norm_num
  obtain ⟨z, h1, h2⟩ := spinDensityMatrixElem_hermitian hrx hL hi hj
  have hpi := Real.pi_pos
  have conv : ∀ x : ℝ, x * FitResult.radToDeg = x / Real.pi * 180 := fun x => by unfold FitResult.radToDeg; field_simp
  refine ⟨Complex.arg z * FitResult.radToDeg, ?_, ?_, ?_, ?_⟩
  · unfold FitResult.phase
    rw [if_neg hij, h1]; rfl
  · rw [conv]
    have := (lt_div_iff₀ hpi).2 (show -1 * Real.pi < Complex.arg z by have := Complex.neg_pi_lt_arg z; linarith)
    linarith
  · rw [conv]
    have := (div_le_one₀ hpi).2 (Complex.arg_le_pi z)
    linarith
  · unfold FitResult.phase
    rw [if_neg (Ne.symm hij), h2]
    refine congrArg Outcome.ok ?_
    rw [Complex.arg_conj]
    have hiff : Complex.arg z * FitResult.radToDeg = 180 ↔ Complex.arg z = Real.pi := by
      rw [conv]
      constructor
      · intro h
        have : Complex.arg z / Real.pi = 1 := by linarith
        rw [div_eq_one_iff_eq hpi.ne'] at this; exact this
      · intro h; rw [h, div_self hpi.ne']; norm_num
    by_cases h : Complex.arg z = Real.pi
    · rw [if_pos h, if_pos (hiff.2 h), conv, div_self hpi.ne']; norm_num
    · rw [if_neg h, if_neg (fun e => h (hiff.1 e))]; ring

end Rpwa.Fit

import Verif.Lemmas.SpinWave
import Verif.Lemmas.SpinVec
/-!
# C80: spin wave functions of the relativistic corrections
-/
namespace Rpwa.SpinTensor
open Fraction CgBox Spec

/-- the sequences of helicities are listed completely and without repetition. -/
theorem hels_complete (n : ℕ) : (∀ l : List ℤ, l ∈ hels n ↔ l.length = n ∧ ∀ m ∈ l, m = -1 ∨ m = 0 ∨ m = 1) ∧ (hels n).Nodup :=
  ⟨fun _ => mem_hels, hels_nodup n⟩

/-- C80: the wave function of any spin has one term for every sequence of helicities, with its projection and the square of
its component; for an orbital angular momentum the components are those of the tensor `z ⊗ … ⊗ z`. -/
theorem components (J : ℕ) (type : Char) (ht : type = 's' ∨ type = 'c') : ∃ ts, mkWave J type = .ok ⟨J, type, ts⟩ ∧
    List.Forall₂ (fun m x => x.1 = m ∧ x.2.1 = m.sum ∧ dval false x.2.2 = wave J m ^ 2) (hels J) ts := by
  obtain ⟨ts, h1, h2⟩ := mkWave_spin J type ht
  refine ⟨ts, h1, forall₂_mono h2 fun m _ x hx => ⟨hx.1, hx.2.1, ?_⟩⟩
  rw [hx.2.2.dval_eq, wave_eq, Real.sq_sqrt (by exact_mod_cast (waveSq_pos J m).le)]

theorem components_orbital (L : ℕ) : ∃ ts, mkWave L 'l' = .ok ⟨L, 'l', ts⟩ ∧
    List.Forall₂ (fun m x => x.1 = m ∧ x.2.1 = m.sum ∧ dval false x.2.2 = orbital L m ^ 2) (hels L) ts := by
  obtain ⟨ts, h1, h2⟩ := mkWave_orb L
  refine ⟨ts, h1, forall₂_mono h2 fun m _ x hx => ⟨hx.1, hx.2.1, ?_⟩⟩
  rw [hx.2.2.dval_eq]
  unfold orbSq orbital
  by_cases h : m.sum = 0
  · rw [if_pos h, if_pos h, wave_eq, wave_eq, mul_pow, Real.sq_sqrt (by exact_mod_cast (waveSq_pos L m).le),
      Real.sq_sqrt (by exact_mod_cast (waveSq_pos L _).le)]
    push_cast; rfl
  · rw [if_neg h, if_neg h]; simp

/-- binomial coefficient with an integer below -/
def bin (n : ℕ) (k : ℤ) : ℕ := if k < 0 then 0 else n.choose k.toNat

theorem bin_succ (n : ℕ) (k : ℤ) : bin (n + 1) k = bin n (k - 1) + bin n k := by
  unfold bin
  rcases lt_trichotomy k 0 with h | h | h
  · rw [if_pos h, if_pos (by omega), if_pos h]
  · subst h; simp
  · rw [if_neg (by omega), if_neg (by omega), if_neg (by omega)]
    obtain ⟨j, hj⟩ := Int.eq_ofNat_of_zero_le (show 0 ≤ k - 1 by omega)
    obtain rfl : k = (j : ℤ) + 1 := by omega
    rw [show ((j : ℤ) + 1).toNat = j + 1 by omega, show ((j : ℤ) + 1 - 1).toNat = j by omega, Nat.choose_succ_succ]

/-- sum of the weights of the sequences with a given sum -/
theorem weight_sum (n : ℕ) (M : ℤ) :
    ((hels n).map fun m => if m.sum = M then (2 : ℚ) ^ (m.count 0) else 0).sum = bin (2 * n) (n + M) := by
  induction n generalizing M with
  | zero =>
    simp only [hels, List.map_cons, List.map_nil, List.sum_cons, List.sum_nil, List.count_nil, pow_zero, add_zero]
    by_cases h : M = 0
    · subst h; simp [bin]
    · rw [if_neg (Ne.symm h)]
      unfold bin
      rcases lt_or_gt_of_ne h with h' | h'
      · rw [if_pos (by omega)]; simp
      · rw [if_neg (by omega), Nat.choose_eq_zero_of_lt (by omega)]; simp
  | succ n ih =>
    simp only [hels, List.flatMap_cons, List.flatMap_nil, List.append_nil, List.map_append, List.sum_append, List.map_map]
    have h : ∀ (x : ℤ), (List.map ((fun m => if m.sum = M then (2 : ℚ) ^ (m.count 0) else 0) ∘ fun l => l ++ [x]) (hels n)).sum =
        (if x = 0 then 2 else 1) * (bin (2 * n) (n + (M - x)) : ℚ) := by
      intro x
      rw [← ih (M - x), ← List.sum_map_mul_left]
      congr 1
      refine List.map_congr_left fun l _ => ?_
      simp only [Function.comp, List.sum_append, List.sum_singleton, List.count_append]
      by_cases hx : x = 0
      · subst hx
        by_cases hs : l.sum = M
        · rw [if_pos (by omega), if_pos rfl, if_pos (by omega)]; simp [pow_succ]; ring
        · have h1 : ¬ (l.sum + 0 = M) := by omega
          have h2 : ¬ (l.sum = M - 0) := by omega
          rw [if_neg h1, if_neg h2]; simp
      · rw [if_neg hx]
        by_cases hs : l.sum = M - x
        · rw [if_pos (by omega), if_pos hs]; simp [Ne.symm hx, hx]
        · rw [if_neg (by omega), if_neg hs]; simp
    rw [h, h, h]
    rw [show 2 * (n + 1) = 2 * n + 1 + 1 by ring, bin_succ, bin_succ, bin_succ]
    simp only [reduceIte, show ¬ ((-1 : ℤ) = 0) by decide, show ¬ ((1 : ℤ) = 0) by decide, one_mul]
    rw [show (n : ℤ) + (M - -1) = n + M + 1 by ring, show (n : ℤ) + (M - 0) = n + M by ring, show (n : ℤ) + (M - 1) = n + M - 1 by ring,
      show ((n + 1 : ℕ) : ℤ) + M - 1 - 1 = n + M - 1 by push_cast; ring, show ((n + 1 : ℕ) : ℤ) + M - 1 = n + M by push_cast; ring,
      show ((n + 1 : ℕ) : ℤ) + M = n + M + 1 by push_cast; ring]
    push_cast; ring

/-- the wave function of every spin and projection is normalized. -/
theorem normalized (J : ℕ) (M : ℤ) (hM : |M| ≤ J) : ((hels J).map fun m => if m.sum = M then wave J m ^ 2 else 0).sum = 1 := by
  rw [abs_le] at hM
  have h := weight_sum J M
  have hb : (bin (2 * J) (J + M) : ℚ) = (2 * J).factorial / ((J + M).toNat.factorial * (J - M).toNat.factorial) := by
    unfold bin
    rw [if_neg (by omega), Nat.cast_choose ℚ (show (J + M).toNat ≤ 2 * J by omega)]
    rw [show 2 * J - (J + M).toNat = (J - M).toNat by omega]
  have f1 : (((J + M).toNat.factorial : ℕ) : ℚ) ≠ 0 := by exact_mod_cast (J + M).toNat.factorial_ne_zero
  have f2 : (((J - M).toNat.factorial : ℕ) : ℚ) ≠ 0 := by exact_mod_cast (J - M).toNat.factorial_ne_zero
  have f3 : (((2 * J).factorial : ℕ) : ℚ) ≠ 0 := by exact_mod_cast (2 * J).factorial_ne_zero
  have key : ((hels J).map fun m => if m.sum = M then waveSq J m else 0).sum = 1 := by
    have e : (fun m : List ℤ => if m.sum = M then waveSq J m else 0) = fun m => (if m.sum = M then (2 : ℚ) ^ (m.count 0) else 0) *
        ((J + M).toNat.factorial * (J - M).toNat.factorial / (2 * J).factorial) := by
      funext m
      by_cases hm : m.sum = M
      · rw [if_pos hm, if_pos hm]; unfold waveSq; rw [hm]; ring
      · rw [if_neg hm, if_neg hm]; simp
    rw [e, List.sum_map_mul_right, h, hb]
    field_simp
  have key' := congrArg (fun x : ℚ => (x : ℝ)) key
  rw [Rat.cast_one] at key'
  rw [← key']
  have hc : ∀ ls : List (List ℤ), (ls.map fun m => if m.sum = M then wave J m ^ 2 else 0).sum =
      (((ls.map fun m => if m.sum = M then waveSq J m else 0).sum : ℚ) : ℝ) := by
    intro ls
    induction ls with
    | nil => simp
    | cons m ls ih =>
      rw [List.map_cons, List.sum_cons, List.map_cons, List.sum_cons, ih, Rat.cast_add]
      congr 1
      by_cases hm : m.sum = M
      · rw [if_pos hm, if_pos hm, wave_eq, Real.sq_sqrt (by exact_mod_cast (waveSq_pos J m).le)]
      · rw [if_neg hm, if_neg hm]; simp
  exact hc _

/-- the wave function does not depend on the order of the helicities. -/
theorem symmetric (J : ℕ) (m m' : List ℤ) (h : m.Perm m') : wave J m = wave J m' := by
  unfold wave; rw [h.count_eq, h.sum_eq]

/-- the contraction of any two indices of the wave function vanishes: `Σ_{a,b} (e_a · e_b) ψ(…, a, b) = 0`. -/
theorem traceless (J : ℕ) (l : List ℤ) :
    (([-1, 0, 1] : List ℤ).map fun a => (([-1, 0, 1] : List ℤ).map fun b =>
      dot (vec 1 a) (vec 1 b) * ((wave J (l ++ [a, b]) : ℝ) : ℂ)).sum).sum = 0 := by
  have hw : wave J (l ++ [0, 0]) = 2 * wave J (l ++ [-1, 1]) := by
    rw [wave_eq, wave_eq, ← Real.sqrt_sq (show (0 : ℝ) ≤ 2 by norm_num), ← Real.sqrt_mul (by norm_num)]
    congr 1
    unfold waveSq
    simp [pow_succ]
    ring
  have hs : wave J (l ++ [1, -1]) = wave J (l ++ [-1, 1]) := symmetric J _ _ (List.Perm.append_left _ (List.Perm.swap _ _ _))
  simp only [List.map_cons, List.map_nil, List.sum_cons, List.sum_nil]
  rw [dot_vec 1 1 (x := -1) (y := -1) (by decide) (by decide), dot_vec 1 1 (x := -1) (y := 0) (by decide) (by decide),
    dot_vec 1 1 (x := -1) (y := 1) (by decide) (by decide), dot_vec 1 1 (x := 0) (y := -1) (by decide) (by decide),
    dot_vec 1 1 (x := 0) (y := 0) (by decide) (by decide), dot_vec 1 1 (x := 0) (y := 1) (by decide) (by decide),
    dot_vec 1 1 (x := 1) (y := -1) (by decide) (by decide), dot_vec 1 1 (x := 1) (y := 0) (by decide) (by decide),
    dot_vec 1 1 (x := 1) (y := 1) (by decide) (by decide), hw, hs]
  simp [kc]
  ring

/-- the wave function of spin `J + 1` is the coupling of the wave function of spin `J` with a polarization vector to the
largest spin. -/
theorem stretched (J : ℕ) (l : List ℤ) (m : ℤ) (hl : l ∈ hels J) (hm : m = -1 ∨ m = 0 ∨ m = 1) :
    wave (J + 1) (l ++ [m]) = wave J l * CgBox.Spec.coefficient (J + 1) J l.sum 1 m := by
  have hb := sum_bound hl
  obtain ⟨p, hp⟩ := Int.eq_ofNat_of_zero_le (show 0 ≤ (J : ℤ) + l.sum by omega)
  obtain ⟨q, hq⟩ := Int.eq_ofNat_of_zero_le (show 0 ≤ 1 + m by omega)
  have hr := racah_cell (n1 := 2 * J) (n2 := 2) (a := 0) (by omega) (by omega) p q (by omega) (by omega)
  have hc : CgBox.Spec.coefficient (J + 1) J l.sum 1 m = Real.sqrt (Dl (2 * J) 2 0 : ℝ) * Real.sqrt (Pf (2 * J) 2 0 p q : ℝ) * (gs (2 * J) 2 0 p q : ℝ) := by
    rw [← hr]
    unfold CgBox.Spec.coefficient
    congr 1 <;> push_cast <;> omega
  have hg : (0 : ℚ) ≤ gs (2 * J) 2 0 p q := by
    unfold gs tm
    simp only [Finset.sum_range_succ, Finset.sum_range_zero, zero_add, pow_zero, one_mul]
    have hrf : ∀ n : ℤ, 0 ≤ rf n := fun n => by
      unfold rf; split
      · exact le_refl _
      · positivity
    have h1 := hrf
    exact mul_nonneg (mul_nonneg (mul_nonneg (mul_nonneg (mul_nonneg (h1 _) (h1 _)) (h1 _)) (h1 _)) (h1 _)) (h1 _)
  have hgr : (gs (2 * J) 2 0 p q : ℝ) = Real.sqrt ((gs (2 * J) 2 0 p q ^ 2 : ℚ) : ℝ) := by
    rw [Rat.cast_pow, Real.sqrt_sq (by exact_mod_cast hg)]
  rw [hc, hgr, wave_eq, wave_eq, ← Real.sqrt_mul (by exact_mod_cast (Dl_pos (by omega) (by omega)).le),
    ← Real.sqrt_mul (by exact_mod_cast (mul_pos (Dl_pos (n1 := 2 * J) (n2 := 2) (a := 0) (by omega) (by omega)) (Pf_pos (2 * J) 2 0 p q)).le),
    ← Real.sqrt_mul (by exact_mod_cast (waveSq_pos J l).le)]
  congr 1
  rw [← Rat.cast_mul, ← Rat.cast_mul, ← Rat.cast_mul]
  congr 1
  have e1 : (2 * J).factorial = fc (2 * J : ℕ) := by unfold fc; rw [Int.toNat_natCast]
  have e2 : (2 * (J + 1)).factorial = fc ((2 * J : ℕ) + (2 : ℕ) + 1 - 1) := by
    unfold fc; congr 2; omega
  have e3 : fc ((2 * J : ℕ) + (2 : ℕ) + 1) = (2 * J + 2 + 1) * fc ((2 * J : ℕ) + (2 : ℕ) + 1 - 1) := by
    have := fc_succ (n := (2 * J : ℕ) + (2 : ℕ)) (by omega)
    rw [add_sub_cancel_right, this]; push_cast; ring
  have e4 : (((J : ℤ) + l.sum).toNat.factorial : ℚ) = fc p := by unfold fc; rw [hp]
  have e5 : (((J : ℤ) - l.sum).toNat.factorial : ℚ) = fc ((2 * J : ℕ) - p) := by
    unfold fc; congr 2; push_cast; omega
  have e6 : ((((J + 1 : ℕ) : ℤ) + (l ++ [m]).sum).toNat.factorial : ℚ) = fc (p + q) := by
    unfold fc; congr 2; rw [List.sum_append, List.sum_singleton]; push_cast; omega
  have e7 : ((((J + 1 : ℕ) : ℤ) - (l ++ [m]).sum).toNat.factorial : ℚ) = fc ((2 * J : ℕ) + (2 : ℕ) - p - q) := by
    unfold fc; congr 2; rw [List.sum_append, List.sum_singleton]; push_cast; omega
  have f0 := fc_ne p
  have f1 := fc_ne ((2 * J : ℕ) - p)
  have f2 := fc_ne ((2 * J : ℕ) + (2 : ℕ) + 1 - 1)
  have f3 := fc_ne (2 * J : ℕ)
  have f4 : ((2 : ℚ) * J + 2 + 1) ≠ 0 := by positivity
  have hqn := rf_nonneg (show (0 : ℤ) ≤ (2 * J : ℕ) - p by omega)
  have hpn := rf_nonneg (show (0 : ℤ) ≤ (p : ℤ) by omega)
  unfold waveSq Dl Pf gs tm Wt
  simp only [Finset.sum_range_succ, Finset.sum_range_zero, zero_add, pow_zero, one_mul, Nat.cast_zero, sub_zero, add_zero, mul_zero]
  rw [e1, e2, e4, e5, e6, e7, e3, hqn, hpn, rf_zero]
  have h2 : ((((2 * J : ℕ) : ℤ) + ((2 : ℕ) : ℤ) + 1 : ℤ) : ℚ) = 2 * J + 2 + 1 := by push_cast; ring
  rw [h2]
  rcases hm with rfl | rfl | rfl
  · obtain rfl : q = 0 := by omega
    simp [fc, rf, List.count_append]
    field_simp
  · obtain rfl : q = 1 := by omega
    simp [fc, rf, List.count_append, pow_succ]
    field_simp
    try ring
  · obtain rfl : q = 2 := by omega
    simp [fc, rf, List.count_append]
    field_simp

theorem sq_pm : waveSq 2 [1, -1] = 1 / 6 := by decide +kernel
theorem sq_00 : waveSq 2 [0, 0] = 2 / 3 := by decide +kernel

/-- spin 2, projection 0: `√(1/6) (+- + -+) + √(2/3) 00` -/
example : wave 2 [1, -1] ^ 2 = 1 / 6 ∧ wave 2 [0, 0] ^ 2 = 2 / 3 ∧ [0, 0] ∈ hels 2 := by
  refine ⟨?_, ?_, by decide⟩ <;> rw [wave_eq, Real.sq_sqrt (by exact_mod_cast (waveSq_pos 2 _).le)]
  · rw [sq_pm]; norm_num
  · rw [sq_00]; norm_num

/-- the orbital tensor of `L = 2`: the part of `z ⊗ z` with spin 2 has the components `2/3` along `00` and `1/3` along `+-`. -/
example : orbital 2 [0, 0] = 2 / 3 ∧ orbital 2 [1, -1] = 1 / 3 := by
  constructor
  · unfold orbital
    rw [if_pos (by decide), show List.replicate 2 (0 : ℤ) = [0, 0] from rfl, wave_eq, Real.mul_self_sqrt (by exact_mod_cast (waveSq_pos 2 _).le), sq_00]
    norm_num
  · unfold orbital
    rw [if_pos (by decide), show List.replicate 2 (0 : ℤ) = [0, 0] from rfl, wave_eq, wave_eq, ← Real.sqrt_mul (by exact_mod_cast (waveSq_pos 2 _).le),
      show ((waveSq 2 [1, -1] : ℚ) : ℝ) * ((waveSq 2 [0, 0] : ℚ) : ℝ) = (1 / 3) ^ 2 by rw [sq_pm, sq_00]; norm_num, Real.sqrt_sq (by norm_num)]

example : wave 3 ([0, 1] ++ [-1]) = wave 2 [0, 1] * CgBox.Spec.coefficient 3 2 1 1 (-1) := by
  have := stretched 2 [0, 1] (-1) (by decide) (by decide)
  simpa using this

end Rpwa.SpinTensor

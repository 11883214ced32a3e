import Verif.Model.ParameterSpace
import Mathlib.Analysis.SpecialFunctions.Trigonometric.Deriv
import Mathlib.Analysis.Calculus.Deriv.Mul
import Mathlib.Analysis.Calculus.Deriv.Add
import Mathlib.Analysis.Calculus.Deriv.Inv
import Mathlib.Analysis.SpecialFunctions.Sqrt
import Mathlib.Algebra.BigOperators.Field
import Mathlib.Tactic.Ring
import Mathlib.Tactic.Linarith
import Mathlib.Tactic.NormNum
import Mathlib.Tactic.FieldSimp
/-!
# Parameter space of production amplitudes (C36) -/
namespace Rpwa.PSpace

open Finset Real

/-! ### specification -/

/-- Euclidean length of the coordinates `i, …, m - 1`. -/
noncomputable def tailLen (m : ℕ) (x : ℕ → ℝ) (i : ℕ) : ℝ := sqrt (∑ k ∈ Ico i m, x k ^ 2)

/-- Euclidean length of a vector with `m` coordinates. -/
noncomputable def len (m : ℕ) (x : ℕ → ℝ) : ℝ := tailLen m x 0

/-- coordinate `i` of the point of the unit sphere in `m` dimensions with the angles `φ 0, …, φ (m - 2)`. -/
noncomputable def spherePoint (m : ℕ) (φ : ℕ → ℝ) (i : ℕ) : ℝ :=
  (∏ j ∈ range i, sin (φ j)) * (if i = m - 1 then 1 else cos (φ i))

/-- complex amplitudes with real parts `σ 0, …, σ (n - 1)` and imaginary parts `σ n, …, σ (2 n - 1)`. -/
noncomputable def amp (n : ℕ) (σ : ℕ → ℝ) (a : ℕ) : ℂ := ⟨σ a, σ (a + n)⟩

/-- intensity of the amplitudes for the integral matrix `I`. -/
noncomputable def intensity (n : ℕ) (I : ℕ → ℕ → ℂ) (σ : ℕ → ℝ) : ℝ :=
  (∑ a ∈ range n, ∑ b ∈ range n, I a b * amp n σ a * (starRingEnd ℂ) (amp n σ b)).re

/-- the integral matrix is Hermitian. -/
def Herm (n : ℕ) (I : ℕ → ℕ → ℂ) : Prop := ∀ a < n, ∀ b < n, I a b = (starRingEnd ℂ) (I b a)

/-! ### conversions -/

theorem foldl_mul_range' (f : ℕ → ℝ) (z : ℝ) (n : ℕ) : (List.range n).foldl (fun d i => d * f i) z = z * ∏ i ∈ range n, f i := by
  induction n with
  | zero => simp
  | succ n ih => rw [List.range_succ, List.foldl_append, ih, Finset.prod_range_succ]; simp [mul_assoc]

theorem tailNorm_eq (m : ℕ) (x : ℕ → ℝ) (i : ℕ) (hi : i ≤ m) : tailNorm m x i = tailLen m x i := by
  unfold tailNorm tailLen
  congr 1
  have h : ∀ d, d ≤ m → (List.range d).foldl (fun r k => r + x (m - 1 - k) * x (m - 1 - k)) 0 = ∑ k ∈ Ico (m - d) m, x k ^ 2 := by
    intro d
    induction d with
    | zero => intro _; simp
    | succ d ih =>
      intro hd
      rw [List.range_succ, List.foldl_append, ih (by omega)]
      rw [show m - d = (m - (d + 1)) + 1 by omega]
      have := Finset.sum_eq_sum_Ico_succ_bot (show m - (d + 1) < m by omega) (fun k => x k ^ 2)
      rw [this]
      simp only [List.foldl_cons, List.foldl_nil]
      rw [show m - 1 - d = m - (d + 1) by omega]
      ring
  rw [h (m - i) (by omega), show m - (m - i) = i by omega]

theorem tailLen_nonneg (m : ℕ) (x : ℕ → ℝ) (i : ℕ) : 0 ≤ tailLen m x i := sqrt_nonneg _

theorem tailLen_sq (m : ℕ) (x : ℕ → ℝ) (i : ℕ) : tailLen m x i ^ 2 = ∑ k ∈ Ico i m, x k ^ 2 :=
  sq_sqrt (Finset.sum_nonneg fun _ _ => sq_nonneg _)

theorem tailLen_step {m : ℕ} (x : ℕ → ℝ) {i : ℕ} (hi : i < m) : tailLen m x i ^ 2 = x i ^ 2 + tailLen m x (i + 1) ^ 2 := by
  rw [tailLen_sq, tailLen_sq, Finset.sum_eq_sum_Ico_succ_bot hi]

theorem tailLen_last {m : ℕ} (x : ℕ → ℝ) (hm : 0 < m) : tailLen m x (m - 1) ^ 2 = x (m - 1) ^ 2 := by
  rw [tailLen_sq, Finset.sum_eq_sum_Ico_succ_bot (by omega), show m - 1 + 1 = m by omega]
  simp

theorem abs_le_tailLen {m : ℕ} (x : ℕ → ℝ) {i k : ℕ} (h : i ≤ k) (hk : k < m) : |x k| ≤ tailLen m x i := by
  apply Real.abs_le_sqrt
  exact Finset.single_le_sum (f := fun k => x k ^ 2) (fun _ _ => sq_nonneg _) (Finset.mem_Ico.2 ⟨h, hk⟩)

/-- the coordinate is not confused with the length of the remaining vector by the tolerance of the code. -/
def Clear (x s : ℝ) : Prop := x = s ∨ 1e-10 ≤ |x - s|

theorem angle_spec {x s u : ℝ} (hs : 0 ≤ s) (hu : 0 ≤ u) (h : s ^ 2 = x ^ 2 + u ^ 2) (hc : Clear x s) :
    s * cos (angle x s) = x ∧ s * sin (angle x s) = u := by
  unfold angle
  by_cases h0 : s = 0
  · rw [if_pos h0]
    subst h0
    have hx : x = 0 := by nlinarith [sq_nonneg x, sq_nonneg u]
    have hu' : u = 0 := by nlinarith [sq_nonneg x, sq_nonneg u]
    simp [hx, hu']
  · rw [if_neg h0]
    rcases hc with hc | hc
    · rw [if_pos (by rw [hc]; norm_num), if_pos (by rw [hc]; exact hs)]
      subst hc
      have hu' : u = 0 := by nlinarith [sq_nonneg u]
      simp [hu']
    · rw [if_neg (not_lt.2 hc)]
      have hpos : 0 < s := lt_of_le_of_ne hs (Ne.symm h0)
      have hxs : |x| ≤ s := abs_le_of_sq_le_sq (by nlinarith [sq_nonneg u]) hs
      obtain ⟨hx1, hx2⟩ := abs_le.1 hxs
      refine ⟨?_, ?_⟩
      · rw [cos_arccos (by rw [le_div_iff₀ hpos]; linarith) (by rw [div_le_iff₀ hpos]; linarith)]
        field_simp
      · rw [sin_arccos]
        have : (s * sqrt (1 - (x / s) ^ 2)) = sqrt (s ^ 2 * (1 - (x / s) ^ 2)) := by
          rw [sqrt_mul (sq_nonneg s), sqrt_sq hs]
        rw [this, show s ^ 2 * (1 - (x / s) ^ 2) = u ^ 2 by field_simp; linarith, sqrt_sq hu]

/-- in any case the angle is one whose sine is not negative. -/
theorem angle_range (x s : ℝ) : 0 ≤ angle x s ∧ angle x s ≤ π := by
  unfold angle
  split_ifs
  · exact ⟨le_rfl, pi_pos.le⟩
  · exact ⟨le_rfl, pi_pos.le⟩
  · exact ⟨pi_pos.le, le_rfl⟩
  · exact ⟨arccos_nonneg _, arccos_le_pi _⟩

theorem lastAngle_eq (x s y : ℝ) : lastAngle x s y = if s = 0 then 0 else if y ≥ 0 then angle x s else 2 * π - angle x s := by
  unfold lastAngle angle
  by_cases h : s = 0
  · rw [if_pos h, if_pos h]
  · rw [if_neg h, if_neg h, if_neg h]

theorem lastAngle_spec {x s y : ℝ} (hs : 0 ≤ s) (h : s ^ 2 = x ^ 2 + y ^ 2) (hc : Clear x s) :
    s * cos (lastAngle x s y) = x ∧ s * sin (lastAngle x s y) = y := by
  rw [lastAngle_eq]
  have ha := angle_spec hs (abs_nonneg y) (by rw [sq_abs]; exact h) hc
  by_cases h0 : s = 0
  · subst h0
    rw [if_pos rfl]
    have hx : x = 0 := by nlinarith [sq_nonneg x, sq_nonneg y]
    have hu' : y = 0 := by nlinarith [sq_nonneg x, sq_nonneg y]
    simp [hx, hu']
  · rw [if_neg h0]
    by_cases hy : y ≥ 0
    · rw [if_pos hy]
      rw [abs_of_nonneg hy] at ha
      exact ha
    · rw [if_neg hy, cos_two_pi_sub, sin_two_pi_sub]
      rw [abs_of_neg (not_le.1 hy)] at ha
      exact ⟨ha.1, by linarith [ha.2]⟩

/-- the coordinates computed by the code. -/
noncomputable def cart (m : ℕ) (s : ℕ → ℝ) (i : ℕ) : ℝ :=
  if i < m - 1 then (s 0 * ∏ j ∈ range i, sin (s (j + 1))) * cos (s (i + 1))
  else if i = m - 1 then s 0 * ∏ j ∈ range (m - 1), sin (s (j + 1)) else 0

theorem toCartesian_eq {m : ℕ} (hm : 1 ≤ m) (s : ℕ → ℝ) : toCartesian m s = .ok (cart m s) := by
  unfold toCartesian
  rw [if_neg (by omega)]
  congr 1
  funext i
  unfold cart
  rw [foldl_mul_range' (fun j => sin (s (j + 1))), foldl_mul_range' (fun j => sin (s (j + 1)))]

/-- the angles computed by the code. -/
noncomputable def sph (m : ℕ) (x : ℕ → ℝ) (i : ℕ) : ℝ :=
  if i = 0 then len m x
  else if i < m - 1 then angle (x (i - 1)) (tailLen m x (i - 1))
  else if i = m - 1 then lastAngle (x (m - 2)) (tailLen m x (m - 2)) (x (m - 1))
  else 0

theorem toSpherical_eq {m : ℕ} (hm : 2 ≤ m) (x : ℕ → ℝ) : toSpherical m x = .ok (sph m x) := by
  unfold toSpherical
  rw [if_neg (by omega)]
  congr 1
  funext i
  unfold sph len
  by_cases h0 : i = 0
  · rw [if_pos h0, if_pos h0, tailNorm_eq m x 0 (by omega)]
  · rw [if_neg h0, if_neg h0]
    by_cases h1 : i < m - 1
    · rw [if_pos h1, if_pos h1, tailNorm_eq m x (i - 1) (by omega)]
    · rw [if_neg h1, if_neg h1, tailNorm_eq m x (m - 2) (by omega)]

theorem prefix_prod {m : ℕ} (hm : 2 ≤ m) (x : ℕ → ℝ) (i : ℕ) (hi : i ≤ m - 2) (hc : ∀ j < i, Clear (x j) (tailLen m x j)) :
    sph m x 0 * ∏ j ∈ range i, sin (sph m x (j + 1)) = tailLen m x i := by
  induction i with
  | zero => simp [sph, len]
  | succ i ih =>
    rw [Finset.prod_range_succ, ← mul_assoc, ih (by omega) (fun j hj => hc j (by omega))]
    have : sph m x (i + 1) = angle (x i) (tailLen m x i) := by
      unfold sph
      rw [if_neg (by omega), if_pos (by omega)]
      simp
    rw [this]
    exact (angle_spec (tailLen_nonneg _ _ _) (tailLen_nonneg _ _ _) (tailLen_step x (by omega)) (hc i (by omega))).2

theorem cart_sph_before {m : ℕ} (hm : 2 ≤ m) (x : ℕ → ℝ) (b : ℕ) (hb : b ≤ m - 2) (hc : ∀ j < b, Clear (x j) (tailLen m x j)) (i : ℕ) (hi : i < b) :
    cart m (sph m x) i = x i := by
  unfold cart
  rw [if_pos (by omega), prefix_prod hm x i (by omega) (fun j hj => hc j (by omega))]
  have : sph m x (i + 1) = angle (x i) (tailLen m x i) := by
    unfold sph
    rw [if_neg (by omega), if_pos (by omega)]
    simp
  rw [this]
  exact (angle_spec (tailLen_nonneg _ _ _) (tailLen_nonneg _ _ _) (tailLen_step x (by omega)) (hc i hi)).1

theorem last_step {m : ℕ} (hm : 2 ≤ m) (x : ℕ → ℝ) : tailLen m x (m - 2) ^ 2 = x (m - 2) ^ 2 + x (m - 1) ^ 2 := by
  rw [tailLen_step x (by omega), show m - 2 + 1 = m - 1 by omega, tailLen_last x (by omega)]

theorem sph_last {m : ℕ} (hm : 2 ≤ m) (x : ℕ → ℝ) : sph m x (m - 2 + 1) = lastAngle (x (m - 2)) (tailLen m x (m - 2)) (x (m - 1)) := by
  unfold sph
  rw [if_neg (by omega), if_neg (by omega), if_pos (by omega)]

/-- **C36** converting to spherical coordinates and back gives the same vector, whatever its size (at least 2) — unless a
coordinate is within the tolerance of the code of the length of the rest without being equal to it. -/
theorem cartesian_spherical_partial {m : ℕ} (hm : 2 ≤ m) (x : ℕ → ℝ) (hc : ∀ i, i ≤ m - 2 → Clear (x i) (tailLen m x i)) :
    ∃ s y : ℕ → ℝ, toSpherical m x = .ok s ∧ toCartesian m s = .ok y ∧ ∀ i < m, y i = x i := by
  refine ⟨_, _, toSpherical_eq hm x, toCartesian_eq (by omega) _, fun i hi => ?_⟩
  have hl := lastAngle_spec (tailLen_nonneg m x (m - 2)) (last_step hm x) (hc (m - 2) le_rfl)
  by_cases h1 : i < m - 2
  · exact cart_sph_before hm x (m - 2) le_rfl (fun j hj => hc j (by omega)) i h1
  · have hpre := prefix_prod hm x (m - 2) le_rfl (fun j hj => hc j (by omega))
    by_cases h2 : i = m - 2
    · subst h2
      unfold cart
      rw [if_pos (by omega), hpre, sph_last hm]
      exact hl.1
    · have h3 : i = m - 1 := by omega
      subst h3
      unfold cart
      rw [if_neg (by omega), if_pos rfl]
      have : range (m - 1) = range (m - 2 + 1) := by rw [show m - 2 + 1 = m - 1 by omega]
      rw [this, Finset.prod_range_succ, ← mul_assoc, hpre, sph_last hm]
      exact hl.2

theorem angle_unclear {x s : ℝ} (hs : s ≠ 0) (h : |x - s| < 1e-10) : angle x s = if x ≥ 0 then 0 else π := by
  unfold angle
  rw [if_neg hs, if_pos h]

/-- **C36** for every vector of size at least 2 the round trip is exact up to `max(1e-10, sqrt(2e-10 * length))` in every coordinate. -/
theorem cartesian_spherical_approx {m : ℕ} (hm : 2 ≤ m) (x : ℕ → ℝ) :
    ∃ s y : ℕ → ℝ, toSpherical m x = .ok s ∧ toCartesian m s = .ok y ∧ ∀ i < m, |y i - x i| ≤ max 1e-10 (sqrt (2e-10 * len m x)) := by
  classical
  have hmax : (0 : ℝ) ≤ max 1e-10 (sqrt (2e-10 * len m x)) := le_trans (by norm_num) (le_max_left _ _)
  by_cases hall : ∀ i, i ≤ m - 2 → Clear (x i) (tailLen m x i)
  · obtain ⟨s, y, hs, hy, h⟩ := cartesian_spherical_partial hm x hall
    refine ⟨s, y, hs, hy, fun i hi => ?_⟩
    rw [h i hi, sub_self, abs_zero]
    exact hmax
  · have hex : ∃ i, i ≤ m - 2 ∧ ¬ Clear (x i) (tailLen m x i) := by
      by_contra hn
      exact hall fun i hi => by
        by_contra hc
        exact hn ⟨i, hi, hc⟩
    refine ⟨_, _, toSpherical_eq hm x, toCartesian_eq (by omega) _, ?_⟩
    obtain ⟨hb, hbad⟩ := Nat.find_spec hex
    have hbefore : ∀ j < Nat.find hex, Clear (x j) (tailLen m x j) := by
      intro j hj
      have := Nat.find_min hex hj
      by_contra hc
      exact this ⟨by omega, hc⟩
    generalize Nat.find hex = b at hb hbad hbefore
    have hbad1 : x b ≠ tailLen m x b := fun h => hbad (Or.inl h)
    have hbad2 : |x b - tailLen m x b| < 1e-10 := by
      by_contra h
      exact hbad (Or.inr (not_lt.1 h))
    have hsub : x b < tailLen m x b := lt_of_le_of_ne (le_trans (le_abs_self _) (abs_le_tailLen x le_rfl (by omega))) hbad1
    have hxb := abs_le.1 (abs_le_tailLen x (le_refl b) (show b < m by omega))
    have hdiff : tailLen m x b - x b < 1e-10 := by
      rw [abs_of_neg (by linarith)] at hbad2
      linarith
    have hne : tailLen m x b ≠ 0 := by
      intro h0
      rw [h0] at hxb hsub
      linarith [hxb.1]
    -- the angle of coordinate b
    have hang : cos (sph m x (b + 1)) = (if x b ≥ 0 then 1 else -1) ∧ sin (sph m x (b + 1)) = 0 := by
      have ha := angle_unclear hne hbad2
      by_cases hbl : b < m - 2
      · have : sph m x (b + 1) = angle (x b) (tailLen m x b) := by
          unfold sph
          rw [if_neg (by omega), if_pos (by omega)]
          simp
        rw [this, ha]
        split_ifs <;> simp
      · have hb' : b = m - 2 := by omega
        subst hb'
        rw [sph_last hm, lastAngle_eq, if_neg hne, ha]
        split_ifs <;> simp
    have hpre := prefix_prod hm x b hb hbefore
    have hzero : ∀ i, b < i → ∏ j ∈ range i, sin (sph m x (j + 1)) = 0 :=
      fun i hi => Finset.prod_eq_zero (Finset.mem_range.2 hi) hang.2
    have hlen : tailLen m x b ≤ len m x := by
      apply Real.sqrt_le_sqrt
      exact Finset.sum_le_sum_of_subset_of_nonneg (Finset.Ico_subset_Ico_left (by omega)) fun _ _ _ => sq_nonneg _
    intro i hi
    rcases lt_trichotomy i b with h | h | h
    · rw [cart_sph_before hm x b hb hbefore i h, sub_self, abs_zero]
      exact hmax
    · subst h
      unfold cart
      rw [if_pos (by omega), hpre, hang.1]
      refine le_trans ?_ (le_max_left _ _)
      split_ifs with hx
      · rw [mul_one, abs_of_nonneg (by linarith)]
        exact hdiff.le
      · rw [mul_neg, mul_one, abs_of_nonpos (by linarith [hxb.1])]
        push Not at hx
        linarith
    · have hci : cart m (sph m x) i = 0 := by
        unfold cart
        split_ifs with h1 h2
        · rw [hzero i h]; simp
        · rw [hzero (m - 1) (by omega)]; simp
        · rfl
      rw [hci, zero_sub, abs_neg]
      refine le_trans ?_ (le_max_right _ _)
      refine le_trans (abs_le_tailLen x (show b + 1 ≤ i by omega) hi) ?_
      apply Real.le_sqrt_of_sq_le
      have hst := tailLen_step x (show b < m by omega)
      have : tailLen m x (b + 1) ^ 2 = (tailLen m x b - x b) * (tailLen m x b + x b) := by nlinarith
      rw [this]
      have h2 : tailLen m x b + x b ≤ 2 * len m x := by linarith [hxb.2]
      have h3 : 0 ≤ tailLen m x b + x b := by linarith [hxb.1]
      calc (tailLen m x b - x b) * (tailLen m x b + x b) ≤ 1e-10 * (2 * len m x) := mul_le_mul hdiff.le h2 h3 (by norm_num)
        _ = 2e-10 * len m x := by norm_num; ring

/-- a vector whose small coordinates are lost. -/
theorem cartesian_spherical_loses :
    ∃ s y : ℕ → ℝ, toSpherical 3 (fun i => if i = 0 then 1 else if i = 1 then 1e-5 else 0) = .ok s ∧ toCartesian 3 s = .ok y ∧ y 1 = 0 := by
  refine ⟨_, _, toSpherical_eq (by norm_num) _, toCartesian_eq (by norm_num) _, ?_⟩
  have ht : tailLen 3 (fun i => if i = 0 then 1 else if i = 1 then 1e-5 else 0) 0 = sqrt (1 + 1e-10) := by
    unfold tailLen
    congr 1
    simp [Finset.sum_range_succ]
    norm_num
  have h1 : (1 : ℝ) ≤ sqrt (1 + 1e-10) := Real.le_sqrt_of_sq_le (by norm_num)
  have h2 : sqrt (1 + 1e-10) < 1 + 1e-10 := by
    rw [Real.sqrt_lt' (by norm_num)]
    norm_num
  have ha : sph 3 (fun i => if i = 0 then 1 else if i = 1 then 1e-5 else 0) 1 = 0 := by
    have : sph 3 (fun i => if i = 0 then 1 else if i = 1 then 1e-5 else 0) 1 = angle 1 (tailLen 3 (fun i => if i = 0 then 1 else if i = 1 then 1e-5 else 0) 0) := rfl
    rw [this, ht, angle_unclear (by linarith) (by rw [abs_of_nonpos (by linarith)]; linarith), if_pos (by norm_num)]
  unfold cart
  rw [if_pos (by norm_num)]
  have : (∏ j ∈ range 1, sin (sph 3 (fun i => if i = 0 then 1 else if i = 1 then 1e-5 else 0) (j + 1))) = 0 := by
    rw [Finset.prod_range_one]
    show sin (sph 3 (fun i => if i = 0 then 1 else if i = 1 then 1e-5 else 0) 1) = 0
    rw [ha, sin_zero]
  rw [this]
  simp

/-- the hypothesis of `cartesian_spherical_partial` holds for a vector with a negative and a zero coordinate. -/
example : ∀ i, i ≤ 3 - 2 → Clear ((fun i => if i = 0 then (-3 : ℝ) else if i = 1 then 4 else 0) i) (tailLen 3 (fun i => if i = 0 then (-3 : ℝ) else if i = 1 then 4 else 0) i) := by
  intro i hi
  have h0 : tailLen 3 (fun i => if i = 0 then (-3 : ℝ) else if i = 1 then 4 else 0) 0 = 5 := by
    unfold tailLen
    rw [show (∑ k ∈ Ico 0 3, (if k = 0 then (-3 : ℝ) else if k = 1 then 4 else 0) ^ 2) = 5 ^ 2 by simp [Finset.sum_range_succ]; norm_num]
    exact Real.sqrt_sq (by norm_num)
  have h1 : tailLen 3 (fun i => if i = 0 then (-3 : ℝ) else if i = 1 then 4 else 0) 1 = 4 := by
    unfold tailLen
    rw [show (∑ k ∈ Ico 1 3, (if k = 0 then (-3 : ℝ) else if k = 1 then 4 else 0) ^ 2) = 4 ^ 2 by simp [Finset.sum_Ico_succ_top]]
    exact Real.sqrt_sq (by norm_num)
  have hi' : i = 0 ∨ i = 1 := by omega
  rcases hi' with rfl | rfl
  · right; rw [h0]; norm_num
  · left; rw [h1]; norm_num

theorem tailLen_cart {m : ℕ} (hm : 1 ≤ m) (s : ℕ → ℝ) (h0 : 0 ≤ s 0) (hs : ∀ i, 1 ≤ i → i < m - 1 → 0 ≤ s i ∧ s i ≤ π) (i : ℕ) (hi : i ≤ m - 2) :
    tailLen m (cart m s) i = s 0 * ∏ j ∈ range i, sin (s (j + 1)) := by
  have hsq : ∀ d, d ≤ m - 1 → ∑ k ∈ Ico (m - 1 - d) m, cart m s k ^ 2 = (s 0 * ∏ j ∈ range (m - 1 - d), sin (s (j + 1))) ^ 2 := by
    intro d
    induction d with
    | zero =>
      intro _
      rw [Finset.sum_eq_sum_Ico_succ_bot (by omega)]
      rw [show m - 1 - 0 + 1 = m by omega, Finset.Ico_self, Finset.sum_empty, add_zero]
      unfold cart
      rw [if_neg (by omega), if_pos (by omega)]
      rfl
    | succ d ih =>
      intro hd
      rw [Finset.sum_eq_sum_Ico_succ_bot (by omega), show m - 1 - (d + 1) + 1 = m - 1 - d by omega, ih (by omega)]
      have : cart m s (m - 1 - (d + 1)) = (s 0 * ∏ j ∈ range (m - 1 - (d + 1)), sin (s (j + 1))) * cos (s (m - 1 - (d + 1) + 1)) := by
        unfold cart
        rw [if_pos (by omega)]
      rw [this]
      have hr : range (m - 1 - d) = range (m - 1 - (d + 1) + 1) := by rw [show m - 1 - (d + 1) + 1 = m - 1 - d by omega]
      rw [hr, Finset.prod_range_succ]
      have := Real.sin_sq_add_cos_sq (s (m - 1 - (d + 1) + 1))
      calc _ = (s 0 * ∏ j ∈ range (m - 1 - (d + 1)), sin (s (j + 1))) ^ 2 * (sin (s (m - 1 - (d + 1) + 1)) ^ 2 + cos (s (m - 1 - (d + 1) + 1)) ^ 2) := by ring
        _ = _ := by rw [this, mul_one]
  unfold tailLen
  have := hsq (m - 1 - i) (by omega)
  rw [show m - 1 - (m - 1 - i) = i by omega] at this
  rw [this]
  apply Real.sqrt_sq
  apply mul_nonneg h0
  apply Finset.prod_nonneg
  intro j hj
  have hj' := Finset.mem_range.1 hj
  obtain ⟨h1, h2⟩ := hs (j + 1) (by omega) (by omega)
  exact sin_nonneg_of_nonneg_of_le_pi h1 h2

/-- canonical spherical coordinates, away from the tolerance of the code. -/
structure Canonical (m : ℕ) (s : ℕ → ℝ) : Prop where
  radius : 0 ≤ s 0
  inner : ∀ i, 1 ≤ i → i < m - 1 → 0 ≤ s i ∧ s i ≤ π
  last : 0 ≤ s (m - 1) ∧ s (m - 1) < 2 * π
  /-- angles that do not matter are 0. -/
  pole : ∀ i < m - 1, s 0 * ∏ j ∈ range i, sin (s (j + 1)) = 0 → s (i + 1) = 0
  clear : ∀ i < m - 1, s (i + 1) = 0 ∨ 1e-10 ≤ (s 0 * ∏ j ∈ range i, sin (s (j + 1))) * (1 - cos (s (i + 1)))

theorem angle_cos {t a : ℝ} (ht : 0 ≤ t) (ha : 0 ≤ a ∧ a ≤ π) (hp : t = 0 → a = 0) (hc : a = 0 ∨ 1e-10 ≤ t * (1 - cos a)) : angle (t * cos a) t = a := by
  unfold angle
  by_cases h0 : t = 0
  · rw [if_pos h0, hp h0]
  · rw [if_neg h0]
    rcases hc with hc | hc
    · subst hc
      rw [if_pos (by simp; norm_num), if_pos (by simpa using ht)]
    · rw [if_neg]
      · rw [mul_div_cancel_left₀ _ h0, arccos_cos ha.1 ha.2]
      · rw [not_lt, show t * cos a - t = -(t * (1 - cos a)) by ring, abs_neg]
        exact le_trans hc (le_abs_self _)

/-- **C36** converting canonical spherical coordinates to Cartesian ones and back gives the same coordinates. -/
theorem spherical_cartesian_partial {m : ℕ} (hm : 2 ≤ m) (s : ℕ → ℝ) (hs : Canonical m s) :
    ∃ x t : ℕ → ℝ, toCartesian m s = .ok x ∧ toSpherical m x = .ok t ∧ ∀ i < m, t i = s i := by
  refine ⟨_, _, toCartesian_eq (by omega) s, toSpherical_eq hm _, fun i hi => ?_⟩
  have htl := tailLen_cart (m := m) (by omega) s hs.radius hs.inner
  unfold sph len
  by_cases h0 : i = 0
  · rw [if_pos h0, h0, htl 0 (by omega)]
    simp
  · rw [if_neg h0]
    have hpos : ∀ i, i ≤ m - 2 → 0 ≤ s 0 * ∏ j ∈ range i, sin (s (j + 1)) := fun i hi => by
      rw [← htl i hi]; exact tailLen_nonneg _ _ _
    by_cases h1 : i < m - 1
    · obtain ⟨k, rfl⟩ : ∃ k, i = k + 1 := ⟨i - 1, by omega⟩
      rw [if_pos h1, Nat.add_sub_cancel, htl k (by omega)]
      have : cart m s k = (s 0 * ∏ j ∈ range k, sin (s (j + 1))) * cos (s (k + 1)) := by
        unfold cart; rw [if_pos (by omega)]
      rw [this]
      exact angle_cos (hpos k (by omega)) (hs.inner (k + 1) (by omega) h1) (hs.pole k (by omega)) (hs.clear k (by omega))
    · have hi' : i = m - 1 := by omega
      rw [if_neg h1, if_pos hi', htl (m - 2) le_rfl, lastAngle_eq]
      have hcos : cart m s (m - 2) = (s 0 * ∏ j ∈ range (m - 2), sin (s (j + 1))) * cos (s (m - 1)) := by
        unfold cart; rw [if_pos (by omega), show m - 2 + 1 = m - 1 by omega]
      have hsin : cart m s (m - 1) = (s 0 * ∏ j ∈ range (m - 2), sin (s (j + 1))) * sin (s (m - 1)) := by
        unfold cart
        rw [if_neg (by omega), if_pos rfl]
        have : range (m - 1) = range (m - 2 + 1) := by rw [show m - 2 + 1 = m - 1 by omega]
        rw [this, Finset.prod_range_succ, show m - 2 + 1 = m - 1 by omega, mul_assoc]
      have hp := hs.pole (m - 2) (by omega)
      have hc := hs.clear (m - 2) (by omega)
      have ht := hpos (m - 2) le_rfl
      rw [show m - 2 + 1 = m - 1 by omega] at hp hc
      rw [hcos, hsin, hi']
      generalize s 0 * ∏ j ∈ range (m - 2), sin (s (j + 1)) = t at hp hc ht
      obtain ⟨ha0, ha1⟩ := hs.last
      generalize s (m - 1) = a at hp hc ha0 ha1
      by_cases ht0 : t = 0
      · rw [if_pos ht0, hp ht0]
      · rw [if_neg ht0]
        have htp : 0 < t := lt_of_le_of_ne ht (Ne.symm ht0)
        by_cases hpi : a ≤ π
        · rw [if_pos (mul_nonneg ht (sin_nonneg_of_nonneg_of_le_pi ha0 hpi))]
          exact angle_cos ht ⟨ha0, hpi⟩ hp hc
        · push Not at hpi
          have hneg : sin a < 0 := by
            have := sin_pos_of_pos_of_lt_pi (x := 2 * π - a) (by linarith) (by linarith)
            rw [sin_two_pi_sub] at this
            linarith
          rw [if_neg (by rw [ge_iff_le, not_le]; exact mul_neg_of_pos_of_neg htp hneg)]
          have := angle_cos (a := 2 * π - a) ht ⟨by linarith, by linarith⟩ (fun h => absurd h ht0) (by
            rw [cos_two_pi_sub]
            rcases hc with hc | hc
            · linarith [pi_pos]
            · exact Or.inr hc)
          rw [cos_two_pi_sub] at this
          rw [this]
          ring

/-- spherical coordinates of a vector of size 4 that meet the hypothesis. -/
example : Canonical 4 (fun i => if i = 0 then 2 else if i = 3 then 3 * π / 2 else π / 2) := by
  have hp := pi_pos
  refine ⟨by norm_num, ?_, by constructor <;> simp <;> linarith, ?_, ?_⟩
  · intro i h1 h2
    have : i = 1 ∨ i = 2 := by omega
    rcases this with rfl | rfl <;> constructor <;> simp <;> linarith
  · intro i hi
    have : i = 0 ∨ i = 1 ∨ i = 2 := by omega
    rcases this with rfl | rfl | rfl <;> simp [Finset.prod_range_succ]
  · intro i hi
    have : i = 0 ∨ i = 1 ∨ i = 2 := by omega
    right
    rcases this with rfl | rfl | rfl
    · simp; norm_num
    · simp; norm_num
    · have : cos (3 * π / 2) = 0 := by
        rw [show 3 * π / 2 = π / 2 + π by ring, cos_add_pi, cos_pi_div_two, neg_zero]
      simp [Finset.prod_range_succ, this]; norm_num

/-! ### coordinates and their derivatives -/

/-- coordinates from cosines and sines; `M` is the last index. -/
noncomputable def S (M : ℕ) (c s : ℕ → ℝ) (i : ℕ) : ℝ := (∏ j ∈ range i, s j) * (if i = M then 1 else c i)

/-- partial derivatives. -/
noncomputable def D (M : ℕ) (c s : ℕ → ℝ) (i k : ℕ) : ℝ :=
  if i < k then 0
  else if k = i then -∏ j ∈ range (i + 1), s j
  else (∏ j ∈ range i, if j = k then c j else s j) * (if i = M then 1 else c i)

theorem calculateSigma_eq (n : ℕ) (c s : ℕ → ℝ) (i : ℕ) : calculateSigma n c s i = S (2 * n - 1) c s i := by
  unfold calculateSigma S
  rw [foldl_mul_range', mul_comm]

theorem calculateDSigmaDPhi_eq (n : ℕ) (c s : ℕ → ℝ) (i k : ℕ) : calculateDSigmaDPhi n c s i k = D (2 * n - 1) c s i k := by
  unfold calculateDSigmaDPhi D
  by_cases h : i < k
  · rw [if_pos h, if_pos h]
  · rw [if_neg h, if_neg h]
    by_cases h2 : k = i
    · rw [if_pos h2, if_pos h2, foldl_mul_range']
      ring
    · rw [if_neg h2, if_neg h2, foldl_mul_range' (fun j => if j = k then c j else s j), mul_comm]

theorem S_zero (M : ℕ) (c s : ℕ → ℝ) : S (M + 1) c s 0 = c 0 := by simp [S]

theorem S_zero_zero (c s : ℕ → ℝ) : S 0 c s 0 = 1 := by simp [S]

theorem S_succ (M : ℕ) (c s : ℕ → ℝ) (i : ℕ) : S (M + 1) c s (i + 1) = s 0 * S M (fun j => c (j + 1)) (fun j => s (j + 1)) i := by
  unfold S
  rw [Finset.prod_range_succ']
  simp only [Nat.add_right_cancel_iff]
  ring

theorem D_zero_zero (M : ℕ) (c s : ℕ → ℝ) : D (M + 1) c s 0 0 = -s 0 := by simp [D]

theorem D_zero_succ (M : ℕ) (c s : ℕ → ℝ) (k : ℕ) : D (M + 1) c s 0 (k + 1) = 0 := by simp [D]

theorem D_succ_zero (M : ℕ) (c s : ℕ → ℝ) (i : ℕ) : D (M + 1) c s (i + 1) 0 = c 0 * S M (fun j => c (j + 1)) (fun j => s (j + 1)) i := by
  unfold D S
  rw [if_neg (by omega), if_neg (by omega), Finset.prod_range_succ']
  simp only [Nat.add_right_cancel_iff, if_true, Nat.add_eq_zero_iff, Nat.one_ne_zero, and_false, if_false]
  ring

theorem D_succ_succ (M : ℕ) (c s : ℕ → ℝ) (i k : ℕ) : D (M + 1) c s (i + 1) (k + 1) = s 0 * D M (fun j => c (j + 1)) (fun j => s (j + 1)) i k := by
  unfold D
  by_cases h : i < k
  · rw [if_pos (by omega), if_pos h, mul_zero]
  · rw [if_neg (by omega), if_neg h]
    by_cases h2 : k = i
    · rw [if_pos (by omega), if_pos h2, Finset.prod_range_succ']
      ring
    · rw [if_neg (by omega), if_neg h2, Finset.prod_range_succ']
      simp only [Nat.add_right_cancel_iff]
      rw [if_neg (by omega)]
      ring

theorem sum_S_sq (M : ℕ) (c s : ℕ → ℝ) (h : ∀ j < M, c j ^ 2 + s j ^ 2 = 1) : ∑ i ∈ range (M + 1), S M c s i ^ 2 = 1 := by
  induction M generalizing c s with
  | zero => simp [S]
  | succ M ih =>
    rw [Finset.sum_range_succ', S_zero]
    simp only [S_succ, mul_pow]
    rw [← Finset.mul_sum, ih _ _ (fun j hj => h (j + 1) (by omega)), mul_one]
    linarith [h 0 (by omega)]

theorem sum_S_D (M : ℕ) (c s : ℕ → ℝ) (h : ∀ j < M, c j ^ 2 + s j ^ 2 = 1) (k : ℕ) (hk : k < M) : ∑ i ∈ range (M + 1), S M c s i * D M c s i k = 0 := by
  induction M generalizing c s k with
  | zero => omega
  | succ M ih =>
    rw [Finset.sum_range_succ', S_zero]
    have hs := sum_S_sq M (fun j => c (j + 1)) (fun j => s (j + 1)) (fun j hj => h (j + 1) (by omega))
    cases k with
    | zero =>
      rw [D_zero_zero]
      simp only [S_succ, D_succ_zero]
      rw [show (∑ x ∈ range (M + 1), s 0 * S M (fun j => c (j + 1)) (fun j => s (j + 1)) x * (c 0 * S M (fun j => c (j + 1)) (fun j => s (j + 1)) x)) =
        s 0 * c 0 * ∑ x ∈ range (M + 1), S M (fun j => c (j + 1)) (fun j => s (j + 1)) x ^ 2 by
          rw [Finset.mul_sum]; exact Finset.sum_congr rfl fun _ _ => by ring]
      rw [hs]
      ring
    | succ k =>
      rw [D_zero_succ]
      simp only [S_succ, D_succ_succ]
      rw [show (∑ x ∈ range (M + 1), s 0 * S M (fun j => c (j + 1)) (fun j => s (j + 1)) x * (s 0 * D M (fun j => c (j + 1)) (fun j => s (j + 1)) x k)) =
        s 0 ^ 2 * ∑ x ∈ range (M + 1), S M (fun j => c (j + 1)) (fun j => s (j + 1)) x * D M (fun j => c (j + 1)) (fun j => s (j + 1)) x k by
          rw [Finset.mul_sum]; exact Finset.sum_congr rfl fun _ _ => by ring]
      rw [ih _ _ (fun j hj => h (j + 1) (by omega)) k (by omega)]
      ring

theorem sum_D_D (M : ℕ) (c s : ℕ → ℝ) (h : ∀ j < M, c j ^ 2 + s j ^ 2 = 1) (k l : ℕ) (hk : k < M) (hl : l < M) :
    ∑ i ∈ range (M + 1), D M c s i k * D M c s i l = if k = l then ∏ j ∈ range k, s j ^ 2 else 0 := by
  induction M generalizing c s k l with
  | zero => omega
  | succ M ih =>
    rw [Finset.sum_range_succ']
    have h' : ∀ j < M, c (j + 1) ^ 2 + s (j + 1) ^ 2 = 1 := fun j hj => h (j + 1) (by omega)
    have hs := sum_S_sq M (fun j => c (j + 1)) (fun j => s (j + 1)) h'
    cases k with
    | zero =>
      cases l with
      | zero =>
        rw [D_zero_zero]
        simp only [D_succ_zero]
        rw [show (∑ x ∈ range (M + 1), c 0 * S M (fun j => c (j + 1)) (fun j => s (j + 1)) x * (c 0 * S M (fun j => c (j + 1)) (fun j => s (j + 1)) x)) =
          c 0 ^ 2 * ∑ x ∈ range (M + 1), S M (fun j => c (j + 1)) (fun j => s (j + 1)) x ^ 2 by
            rw [Finset.mul_sum]; exact Finset.sum_congr rfl fun _ _ => by ring]
        rw [hs]
        simp
        nlinarith [h 0 (by omega)]
      | succ l =>
        rw [D_zero_succ]
        simp only [D_succ_zero, D_succ_succ]
        rw [show (∑ x ∈ range (M + 1), c 0 * S M (fun j => c (j + 1)) (fun j => s (j + 1)) x * (s 0 * D M (fun j => c (j + 1)) (fun j => s (j + 1)) x l)) =
          c 0 * s 0 * ∑ x ∈ range (M + 1), S M (fun j => c (j + 1)) (fun j => s (j + 1)) x * D M (fun j => c (j + 1)) (fun j => s (j + 1)) x l by
            rw [Finset.mul_sum]; exact Finset.sum_congr rfl fun _ _ => by ring]
        rw [sum_S_D _ _ _ h' l (by omega)]
        simp
    | succ k =>
      cases l with
      | zero =>
        rw [D_zero_succ]
        simp only [D_succ_zero, D_succ_succ]
        rw [show (∑ x ∈ range (M + 1), s 0 * D M (fun j => c (j + 1)) (fun j => s (j + 1)) x k * (c 0 * S M (fun j => c (j + 1)) (fun j => s (j + 1)) x)) =
          c 0 * s 0 * ∑ x ∈ range (M + 1), S M (fun j => c (j + 1)) (fun j => s (j + 1)) x * D M (fun j => c (j + 1)) (fun j => s (j + 1)) x k by
            rw [Finset.mul_sum]; exact Finset.sum_congr rfl fun _ _ => by ring]
        rw [sum_S_D _ _ _ h' k (by omega)]
        simp
      | succ l =>
        rw [D_zero_succ]
        simp only [D_succ_succ]
        rw [show (∑ x ∈ range (M + 1), s 0 * D M (fun j => c (j + 1)) (fun j => s (j + 1)) x k * (s 0 * D M (fun j => c (j + 1)) (fun j => s (j + 1)) x l)) =
          s 0 ^ 2 * ∑ x ∈ range (M + 1), D M (fun j => c (j + 1)) (fun j => s (j + 1)) x k * D M (fun j => c (j + 1)) (fun j => s (j + 1)) x l by
            rw [Finset.mul_sum]; exact Finset.sum_congr rfl fun _ _ => by ring]
        rw [ih _ _ h' k l (by omega) (by omega)]
        simp only [Nat.add_right_cancel_iff]
        split_ifs
        · rw [Finset.prod_range_succ']
          ring
        · ring

theorem spherePoint_eq (m : ℕ) (φ : ℕ → ℝ) (i : ℕ) : spherePoint m φ i = S (m - 1) (fun j => cos (φ j)) (fun j => sin (φ j)) i := rfl

/-- the specification is a point on the unit sphere. -/
theorem spherePoint_unit {m : ℕ} (hm : 1 ≤ m) (φ : ℕ → ℝ) : ∑ i ∈ range m, spherePoint m φ i ^ 2 = 1 := by
  have := sum_S_sq (m - 1) (fun j => cos (φ j)) (fun j => sin (φ j)) (fun j _ => by rw [add_comm]; exact sin_sq_add_cos_sq _)
  rw [show m - 1 + 1 = m by omega] at this
  exact this

theorem hasDerivAt_S (M : ℕ) (φ : ℕ → ℝ) (k i : ℕ) (hk : k < M) (hi : i ≤ M) :
    HasDerivAt (fun t => S M (fun j => cos (Function.update φ k t j)) (fun j => sin (Function.update φ k t j)) i)
      (D M (fun j => cos (φ j)) (fun j => sin (φ j)) i k) (φ k) := by
  induction M generalizing φ k i with
  | zero => omega
  | succ M ih =>
    cases k with
    | zero =>
      have hsh : ∀ t, (fun j => Function.update φ 0 t (j + 1)) = fun j => φ (j + 1) := fun t => by
        funext j; rw [Function.update_of_ne (by omega)]
      cases i with
      | zero =>
        simp only [S_zero, Function.update_self, D_zero_zero]
        exact hasDerivAt_cos _
      | succ i =>
        simp only [S_succ, Function.update_self, D_succ_zero]
        have : ∀ t, S M (fun j => cos (Function.update φ 0 t (j + 1))) (fun j => sin (Function.update φ 0 t (j + 1))) i =
            S M (fun j => cos (φ (j + 1))) (fun j => sin (φ (j + 1))) i := fun t => by
          have h := hsh t
          rw [show (fun j => cos (Function.update φ 0 t (j + 1))) = fun j => cos (φ (j + 1)) from funext fun j => by rw [Function.update_of_ne (by omega)],
            show (fun j => sin (Function.update φ 0 t (j + 1))) = fun j => sin (φ (j + 1)) from funext fun j => by rw [Function.update_of_ne (by omega)]]
        simp only [this]
        exact (hasDerivAt_sin _).mul_const _
    | succ k =>
      have hsh : ∀ t j, Function.update φ (k + 1) t (j + 1) = Function.update (fun j => φ (j + 1)) k t j := fun t j => by
        by_cases h : j = k
        · subst h; simp
        · rw [Function.update_of_ne (by omega), Function.update_of_ne h]
      have h0 : ∀ t, Function.update φ (k + 1) t 0 = φ 0 := fun t => Function.update_of_ne (by omega) _ _
      cases i with
      | zero =>
        simp only [S_zero, h0, D_zero_succ]
        exact hasDerivAt_const _ _
      | succ i =>
        simp only [S_succ, h0, D_succ_succ, hsh]
        exact (ih (fun j => φ (j + 1)) k i (by omega) (by omega)).const_mul _

/-! ### the intensity and its derivatives -/

theorem sum_betaRange {n : ℕ} (hn : 0 < n) (f : ℕ → ℕ → ℂ) :
    ∑ alpha ∈ range (2 * n), ∑ beta ∈ betaRange n alpha, f alpha beta =
      ∑ a ∈ range n, ∑ b ∈ range n, (f a b + f (a + n) (b + n)) := by
  rw [two_mul, Finset.sum_range_add]
  simp only [Finset.sum_add_distrib]
  congr 1
  · apply Finset.sum_congr rfl
    intro a ha
    have : betaRange n a = range n := by
      unfold betaRange
      rw [if_pos (Finset.mem_range.1 ha)]
      simp
    rw [this]
  · apply Finset.sum_congr rfl
    intro a ha
    have : betaRange n (n + a) = Ico n (2 * n) := by
      unfold betaRange
      rw [if_neg (by omega)]
      dsimp only
      rw [if_neg (by omega)]
    rw [this, Finset.sum_Ico_eq_sum_range, show 2 * n - n = n by omega]
    apply Finset.sum_congr rfl
    intro b _
    rw [add_comm a n, add_comm b n]

theorem sum_betaRange_real {n : ℕ} (hn : 0 < n) (f : ℕ → ℕ → ℝ) :
    ∑ alpha ∈ range (2 * n), ∑ beta ∈ betaRange n alpha, f alpha beta =
      ∑ a ∈ range n, ∑ b ∈ range n, (f a b + f (a + n) (b + n)) := by
  have := sum_betaRange hn (fun a b => ((f a b : ℝ) : ℂ))
  exact_mod_cast this

theorem mod_add {n a : ℕ} (ha : a < n) : (a + n) % n = a := by rw [Nat.add_mod_right, Nat.mod_eq_of_lt ha]

theorem firstSum_eq {n : ℕ} (hn : 0 < n) (I : ℕ → ℕ → ℂ) (σ : ℕ → ℝ) :
    firstSum n I σ = ∑ a ∈ range n, ∑ b ∈ range n, ((σ a * σ b + σ (a + n) * σ (b + n) : ℝ) : ℂ) * I a b := by
  unfold firstSum
  rw [sum_betaRange hn]
  apply Finset.sum_congr rfl
  intro a ha
  apply Finset.sum_congr rfl
  intro b hb
  rw [mod_add (Finset.mem_range.1 ha), mod_add (Finset.mem_range.1 hb), Nat.mod_eq_of_lt (Finset.mem_range.1 ha),
    Nat.mod_eq_of_lt (Finset.mem_range.1 hb)]
  push_cast
  ring

/-- a double sum that changes sign when the indices are exchanged is zero. -/
theorem antisymm_sum {n : ℕ} (f : ℕ → ℕ → ℝ) (h : ∀ a < n, ∀ b < n, f a b = -f b a) : ∑ a ∈ range n, ∑ b ∈ range n, f a b = 0 := by
  have h1 : ∑ a ∈ range n, ∑ b ∈ range n, f a b = ∑ a ∈ range n, ∑ b ∈ range n, -f b a :=
    Finset.sum_congr rfl fun a ha => Finset.sum_congr rfl fun b hb => h a (Finset.mem_range.1 ha) b (Finset.mem_range.1 hb)
  simp only [Finset.sum_neg_distrib] at h1
  rw [Finset.sum_comm (f := fun a b => f b a)] at h1
  linarith

theorem herm_re {n : ℕ} {I : ℕ → ℕ → ℂ} (h : Herm n I) {a b : ℕ} (ha : a < n) (hb : b < n) : (I a b).re = (I b a).re := by
  have := congrArg Complex.re (h a ha b hb)
  simpa using this

theorem herm_im {n : ℕ} {I : ℕ → ℕ → ℂ} (h : Herm n I) {a b : ℕ} (ha : a < n) (hb : b < n) : (I a b).im = -(I b a).im := by
  have := congrArg Complex.im (h a ha b hb)
  simpa using this

/-- the intensity in terms of real numbers. -/
theorem intensity_real {n : ℕ} {I : ℕ → ℕ → ℂ} (h : Herm n I) (σ : ℕ → ℝ) :
    intensity n I σ = (∑ a ∈ range n, ∑ b ∈ range n, (σ a * σ b + σ (a + n) * σ (b + n)) * (I a b).re) -
      2 * ∑ a ∈ range n, ∑ b ∈ range n, σ (a + n) * σ b * (I a b).im := by
  unfold intensity
  have hz := antisymm_sum (n := n) (fun a b => (σ a * σ (b + n) + σ (a + n) * σ b) * (I a b).im) (fun a ha b hb => by
    rw [herm_im h ha hb]; ring)
  rw [← sub_eq_zero] at hz ⊢
  rw [Complex.re_sum, ← hz]
  simp only [Complex.re_sum, Finset.mul_sum, ← Finset.sum_sub_distrib]
  rw [sub_zero, ← sub_eq_zero, ← Finset.sum_sub_distrib]
  apply Finset.sum_eq_zero
  intro a _
  rw [← Finset.sum_sub_distrib]
  apply Finset.sum_eq_zero
  intro b _
  simp only [amp, Complex.mul_re, Complex.mul_im, Complex.conj_re, Complex.conj_im]
  ring

/-- **C36** for a Hermitian integral matrix the value kept as `rho` is the intensity of the amplitudes. -/
theorem calculateRho_spec {n : ℕ} (hn : 0 < n) {I : ℕ → ℕ → ℂ} (h : Herm n I) (σ : ℕ → ℝ) : calculateRho n I σ = .ok (intensity n I σ) := by
  unfold calculateRho
  have him : (firstSum n I σ).im = 0 := by
    rw [firstSum_eq hn]
    simp only [Complex.im_sum, Complex.im_ofReal_mul]
    exact antisymm_sum _ fun a ha b hb => by rw [herm_im h ha hb]; ring
  rw [if_neg (by rw [him]; norm_num)]
  rw [intensity_real h, firstSum_eq hn]
  simp only [Complex.re_sum, Complex.re_ofReal_mul]
  rfl

/-- derivative of the intensity along a curve of amplitudes. -/
theorem hasDerivAt_intensity {n : ℕ} {I : ℕ → ℕ → ℂ} (h : Herm n I) (σ : ℝ → ℕ → ℝ) (σ' : ℕ → ℝ) (t₀ : ℝ)
    (hσ : ∀ i < 2 * n, HasDerivAt (fun t => σ t i) (σ' i) t₀) :
    HasDerivAt (fun t => intensity n I (σ t))
      ((∑ a ∈ range n, ∑ b ∈ range n, ((I a b).re * σ t₀ b * σ' a + (I a b).re * σ t₀ (b + n) * σ' (a + n))) * 2 -
        2 * ∑ b ∈ range n, ∑ a ∈ range n, (I a b).im * (σ t₀ b * σ' (a + n) + σ t₀ (a + n) * σ' b)) t₀ := by
  simp only [intensity_real h]
  have h1 : HasDerivAt (fun t => ∑ a ∈ range n, ∑ b ∈ range n, (σ t a * σ t b + σ t (a + n) * σ t (b + n)) * (I a b).re)
      (∑ a ∈ range n, ∑ b ∈ range n, ((σ' a * σ t₀ b + σ t₀ a * σ' b) + (σ' (a + n) * σ t₀ (b + n) + σ t₀ (a + n) * σ' (b + n))) * (I a b).re) t₀ := by
    apply HasDerivAt.fun_sum
    intro a ha
    apply HasDerivAt.fun_sum
    intro b hb
    have ha' := Finset.mem_range.1 ha
    have hb' := Finset.mem_range.1 hb
    exact (((hσ a (by omega)).mul (hσ b (by omega))).add ((hσ (a + n) (by omega)).mul (hσ (b + n) (by omega)))).mul_const _
  have h2 : HasDerivAt (fun t => ∑ a ∈ range n, ∑ b ∈ range n, σ t (a + n) * σ t b * (I a b).im)
      (∑ a ∈ range n, ∑ b ∈ range n, (σ' (a + n) * σ t₀ b + σ t₀ (a + n) * σ' b) * (I a b).im) t₀ := by
    apply HasDerivAt.fun_sum
    intro a ha
    apply HasDerivAt.fun_sum
    intro b hb
    have ha' := Finset.mem_range.1 ha
    have hb' := Finset.mem_range.1 hb
    exact ((hσ (a + n) (by omega)).mul (hσ b (by omega))).mul_const _
  refine (h1.sub (h2.const_mul 2)).congr_deriv ?_
  congr 1
  · have hz := antisymm_sum (n := n) (fun a b => ((σ t₀ a * σ' b - σ' a * σ t₀ b) + (σ t₀ (a + n) * σ' (b + n) - σ' (a + n) * σ t₀ (b + n))) * (I a b).re)
      (fun a ha b hb => by rw [herm_re h ha hb]; ring)
    rw [← sub_eq_zero, ← hz, Finset.sum_mul]
    rw [← Finset.sum_sub_distrib]
    apply Finset.sum_congr rfl
    intro a _
    rw [Finset.sum_mul, ← Finset.sum_sub_distrib]
    apply Finset.sum_congr rfl
    intro b _
    ring
  · congr 1
    rw [Finset.sum_comm]
    apply Finset.sum_congr rfl
    intro b _
    apply Finset.sum_congr rfl
    intro a _
    ring

/-! ### objects -/

/-- the members of an object agree with its angles. -/
structure Consistent (p : PS) : Prop where
  pos : 0 < p.n
  herm : Herm p.n p.integral
  sigma : ∀ i < 2 * p.n, p.sigma i = spherePoint (2 * p.n) p.phi i
  sinPhi : ∀ j < 2 * p.n - 1, p.sinPhi j = sin (p.phi j)
  rho : p.rho = intensity p.n p.integral p.sigma
  dSigma : ∀ i < 2 * p.n, ∀ k < 2 * p.n - 1, p.dSigmaDPhi i k = D (2 * p.n - 1) (fun j => cos (p.phi j)) (fun j => sin (p.phi j)) i k
  dR : ∀ k, p.dRDPhi k = calculateDRDPhi p k

theorem D_congr {M : ℕ} {c s c' s' : ℕ → ℝ} (hc : ∀ j < M, c j = c' j) (hs : ∀ j < M, s j = s' j) {i k : ℕ} (hi : i ≤ M) (hk : k < M) : D M c s i k = D M c' s' i k := by
  unfold D
  split_ifs with h1 h2 h3
  · rfl
  · subst h2
    rw [Finset.prod_congr rfl fun j hj => hs j (by have := Finset.mem_range.1 hj; omega)]
  · congr 1
    apply Finset.prod_congr rfl
    intro j hj
    have := Finset.mem_range.1 hj
    rw [hc j (by omega), hs j (by omega)]
  · rw [hc i (by omega)]
    congr 1
    apply Finset.prod_congr rfl
    intro j hj
    have := Finset.mem_range.1 hj
    rw [hc j (by omega), hs j (by omega)]

theorem S_congr {M : ℕ} {c s c' s' : ℕ → ℝ} (hc : ∀ j < M, c j = c' j) (hs : ∀ j < M, s j = s' j) {i : ℕ} (hi : i ≤ M) : S M c s i = S M c' s' i := by
  unfold S
  rw [Finset.prod_congr rfl fun j hj => hs j (by have := Finset.mem_range.1 hj; omega)]
  split_ifs with h
  · rfl
  · rw [hc i (by omega)]

/-- **C36** `setAngles`: all coordinates but the last are those of the point of the unit sphere with these angles; the last one
keeps its previous value.  The derivatives of the coordinates are right.  (The property claims all coordinates.) -/
theorem setAngles_spec_partial (p : PS) (hn : 0 < p.n) (hI : Herm p.n p.integral) (φ : ℕ → ℝ) :
    ∃ p', p.setAngles φ = .ok p' ∧
      (∀ i < 2 * p.n - 1, p'.sigma i = spherePoint (2 * p.n) φ i) ∧
      p'.sigma (2 * p.n - 1) = p.sigma (2 * p.n - 1) ∧
      p'.rho = intensity p.n p.integral p'.sigma ∧
      ∀ i < 2 * p.n, ∀ k < 2 * p.n - 1, HasDerivAt (fun t => spherePoint (2 * p.n) (Function.update φ k t) i) (p'.dSigmaDPhi i k) (φ k) := by
  unfold PS.setAngles PS.initialize
  dsimp only
  rw [calculateRho_spec hn hI]
  refine ⟨_, rfl, ?_, ?_, rfl, ?_⟩
  · intro i hi
    dsimp only
    rw [if_pos hi, calculateSigma_eq, spherePoint_eq]
    exact S_congr (fun j hj => if_pos hj) (fun j hj => if_pos hj) (by omega)
  · dsimp only
    rw [if_neg (by omega)]
  · intro i hi k hk
    dsimp only
    rw [calculateDSigmaDPhi_eq]
    refine (hasDerivAt_S (2 * p.n - 1) φ k i hk (by omega)).congr_deriv ?_
    exact D_congr (fun j hj => (if_pos hj).symm) (fun j hj => (if_pos hj).symm) (by omega) hk

/-- after construction and `setAngles` the coordinates are not on the unit sphere, unless one of the angles is a multiple of pi. -/
theorem setAngles_not_unit (nEvents n : ℕ) (hn : 0 < n) (I : ℕ → ℕ → ℂ) (hI : Herm n (PS.init nEvents n I).integral) (φ : ℕ → ℝ) :
    ∃ p', (PS.init nEvents n I).setAngles φ = .ok p' ∧ ∑ i ∈ range (2 * n), p'.sigma i ^ 2 = 1 - ∏ j ∈ range (2 * n - 1), sin (φ j) ^ 2 := by
  obtain ⟨p', hp, h1, h2, _⟩ := setAngles_spec_partial (PS.init nEvents n I) hn hI φ
  refine ⟨p', hp, ?_⟩
  have hu := spherePoint_unit (m := 2 * n) (by omega) φ
  have hr : range (2 * n) = range (2 * n - 1 + 1) := by rw [show 2 * n - 1 + 1 = 2 * n by omega]
  rw [hr, Finset.sum_range_succ] at hu ⊢
  have hl : p'.sigma (2 * n - 1) = 0 := h2
  rw [hl, Finset.sum_congr rfl fun i hi => by rw [show p'.sigma i = spherePoint (2 * n) φ i from h1 i (Finset.mem_range.1 hi)]]
  have : spherePoint (2 * n) φ (2 * n - 1) = ∏ j ∈ range (2 * n - 1), sin (φ j) := by
    unfold spherePoint
    rw [if_pos rfl, mul_one]
  rw [this] at hu
  rw [Finset.prod_pow]
  linarith

theorem pickCos_eq {x s : ℝ} (hs : 0 ≤ s) (hx : |x| ≤ s) : pickCos x s = cos (angle x s) := by
  unfold pickCos angle
  by_cases h0 : s = 0
  · rw [if_pos h0, if_pos h0, cos_zero]
  · rw [if_neg h0, if_neg h0]
    have hpos : 0 < s := lt_of_le_of_ne hs (Ne.symm h0)
    obtain ⟨h1, h2⟩ := abs_le.1 hx
    split_ifs
    · simp
    · simp
    · rw [cos_arccos (by rw [le_div_iff₀ hpos]; linarith) (by rw [div_le_iff₀ hpos]; linarith)]

theorem pickSin_eq {x s : ℝ} : pickSin x s = sin (angle x s) := by
  unfold pickSin angle
  split_ifs
  · simp
  · simp
  · simp
  · rw [sin_arccos, pow_two]

theorem pickLast_eq {x s y : ℝ} (hs : 0 ≤ s) (hx : |x| ≤ s) :
    pickCos x s = cos (lastAngle x s y) ∧ pickLastSin x s y = sin (lastAngle x s y) := by
  rw [lastAngle_eq]
  unfold pickLastSin
  have hc := pickCos_eq hs hx
  by_cases h0 : s = 0
  · rw [if_pos h0, if_pos h0, hc]
    unfold angle
    rw [if_pos h0]
    simp
  · rw [if_neg h0, if_neg h0]
    have hsin : sqrt (1 - pickCos x s * pickCos x s) = sin (angle x s) := by
      rw [hc, show 1 - cos (angle x s) * cos (angle x s) = sin (angle x s) ^ 2 by nlinarith [sin_sq_add_cos_sq (angle x s)]]
      obtain ⟨h1, h2⟩ := angle_range x s
      exact sqrt_sq (sin_nonneg_of_nonneg_of_le_pi h1 h2)
    rw [hsin]
    split_ifs
    · exact ⟨hc, rfl⟩
    · rw [cos_two_pi_sub, sin_two_pi_sub]
      exact ⟨hc, rfl⟩

/-- **C36** `pickUniformAngles`: the coordinates are the point of the unit sphere in the direction of the random numbers, whatever
they are (not all 0); `rho` is the intensity; the derivatives of the coordinates are right. -/
theorem pickUniformAngles_spec (p : PS) (hn : 0 < p.n) (hI : Herm p.n p.integral) (x : ℕ → ℝ) (hx : len (2 * p.n) x ≠ 0) :
    ∃ p', p.pickUniformAngles x = .ok p' ∧
      ∑ i ∈ range (2 * p.n), p'.sigma i ^ 2 = 1 ∧
      (∀ i < 2 * p.n, len (2 * p.n) x * p'.sigma i = x i) ∧
      p'.rho = intensity p.n p.integral p'.sigma ∧
      ∀ i < 2 * p.n, ∀ k < 2 * p.n - 1, HasDerivAt (fun t => spherePoint (2 * p.n) (Function.update p'.phi k t) i) (p'.dSigmaDPhi i k) (p'.phi k) := by
  unfold PS.pickUniformAngles PS.initialize
  dsimp only
  rw [calculateRho_spec hn hI]
  have hlen : tailNorm (2 * p.n) x 0 = len (2 * p.n) x := tailNorm_eq _ _ _ (by omega)
  refine ⟨_, rfl, ?_, ?_, rfl, ?_⟩
  · dsimp only
    have h : ∀ i ∈ range (2 * p.n), (if i < 2 * p.n then x i / tailNorm (2 * p.n) x 0 else p.sigma i) ^ 2 = x i ^ 2 / len (2 * p.n) x ^ 2 := by
      intro i hi
      rw [if_pos (Finset.mem_range.1 hi), hlen, div_pow]
    rw [Finset.sum_congr rfl h, ← Finset.sum_div]
    have : len (2 * p.n) x ^ 2 = ∑ i ∈ range (2 * p.n), x i ^ 2 := by
      unfold len
      rw [tailLen_sq, Finset.range_eq_Ico]
    rw [← this, div_self (pow_ne_zero 2 hx)]
  · intro i hi
    dsimp only
    rw [if_pos hi, hlen]
    field_simp
  · intro i hi k hk
    dsimp only
    rw [calculateDSigmaDPhi_eq]
    have hab : ∀ j < 2 * p.n, 0 ≤ tailNorm (2 * p.n) x j ∧ |x j| ≤ tailNorm (2 * p.n) x j := fun j hj => by
      rw [tailNorm_eq _ _ _ (by omega)]
      exact ⟨tailLen_nonneg _ _ _, abs_le_tailLen x le_rfl hj⟩
    refine (hasDerivAt_S (2 * p.n - 1) _ k i hk (by omega)).congr_deriv ?_
    apply D_congr
    · intro j hj
      obtain ⟨h1, h2⟩ := hab j (by omega)
      rw [if_pos (show j ≤ 2 * p.n - 2 by omega)]
      by_cases hj2 : j < 2 * p.n - 2
      · rw [if_pos hj2, pickCos_eq h1 h2]
      · have : j = 2 * p.n - 2 := by omega
        rw [if_neg hj2, if_pos this, ← this, ← (pickLast_eq h1 h2).1]
    · intro j hj
      obtain ⟨h1, h2⟩ := hab j (by omega)
      by_cases hj2 : j < 2 * p.n - 2
      · rw [if_pos hj2, if_pos hj2, pickSin_eq]
      · have : j = 2 * p.n - 2 := by omega
        rw [if_neg hj2, if_pos this, if_neg hj2, if_pos this, ← this, ← (pickLast_eq h1 h2).2]
    · omega
    · exact hk

theorem cart_eq {m : ℕ} (s : ℕ → ℝ) {i : ℕ} (hi : i < m) : cart m s i = s 0 * spherePoint m (fun j => s (j + 1)) i := by
  unfold cart spherePoint
  by_cases h : i < m - 1
  · rw [if_pos h, if_neg (by omega)]
    ring
  · have : i = m - 1 := by omega
    rw [if_neg h, if_pos this, if_pos this, this]
    ring

theorem spherePoint_congr {m : ℕ} {φ ψ : ℕ → ℝ} (h : ∀ j < m - 1, φ j = ψ j) {i : ℕ} (hi : i < m) : spherePoint m φ i = spherePoint m ψ i := by
  rw [spherePoint_eq, spherePoint_eq]
  exact S_congr (fun j hj => by rw [h j hj]) (fun j hj => by rw [h j hj]) (by omega)

/-- **C36** after `pickUniformAngles` all members agree with the angles, if no random number is within the tolerance of the code. -/
theorem pickUniformAngles_consistent (p : PS) (hn : 0 < p.n) (hI : Herm p.n p.integral) (x : ℕ → ℝ) (hx : len (2 * p.n) x ≠ 0)
    (hc : ∀ i, i ≤ 2 * p.n - 2 → Clear (x i) (tailLen (2 * p.n) x i)) :
    ∃ p', p.pickUniformAngles x = .ok p' ∧ Consistent p' ∧ p'.n = p.n ∧ p'.nEvents = p.nEvents ∧ p'.integral = p.integral := by
  obtain ⟨s, y, hs, hy, hxy⟩ := cartesian_spherical_partial (m := 2 * p.n) (by omega) x hc
  rw [toSpherical_eq (by omega)] at hs
  obtain rfl := Outcome.ok.inj hs
  rw [toCartesian_eq (by omega)] at hy
  obtain rfl := Outcome.ok.inj hy
  have hspec := pickUniformAngles_spec p hn hI x hx
  obtain ⟨p', hp, _, hσ, hrho, _⟩ := hspec
  refine ⟨p', hp, ?_⟩
  have hp0 := hp
  unfold PS.pickUniformAngles PS.initialize at hp
  dsimp only at hp
  rw [calculateRho_spec hn hI] at hp
  have hp := Outcome.ok.inj hp
  have hab : ∀ j < 2 * p.n, 0 ≤ tailNorm (2 * p.n) x j ∧ |x j| ≤ tailNorm (2 * p.n) x j := fun j hj => by
    rw [tailNorm_eq _ _ _ (by omega)]
    exact ⟨tailLen_nonneg _ _ _, abs_le_tailLen x le_rfl hj⟩
  have hpn : p'.n = p.n := by rw [← hp]
  have hpI : p'.integral = p.integral := by rw [← hp]
  have hphi : ∀ j < 2 * p.n - 1, p'.phi j = sph (2 * p.n) x (j + 1) := by
    intro j hj
    rw [← hp]
    unfold sph
    dsimp only
    by_cases hj2 : j < 2 * p.n - 2
    · rw [if_pos hj2, if_neg (show ¬ j + 1 = 0 by omega), if_pos (show j + 1 < 2 * p.n - 1 by omega), tailNorm_eq _ _ _ (by omega), Nat.add_sub_cancel]
    · rw [if_neg hj2, if_pos (show j = 2 * p.n - 2 by omega), if_neg (show ¬ j + 1 = 0 by omega), if_neg (show ¬ j + 1 < 2 * p.n - 1 by omega),
        if_pos (show j + 1 = 2 * p.n - 1 by omega), tailNorm_eq _ _ _ (by omega)]
  have hcos : ∀ j < 2 * p.n - 1, p'.cosPhi j = cos (p'.phi j) := by
    intro j hj
    rw [← hp]
    dsimp only
    obtain ⟨h1, h2⟩ := hab j (by omega)
    rw [if_pos (show j ≤ 2 * p.n - 2 by omega)]
    by_cases hj2 : j < 2 * p.n - 2
    · rw [if_pos hj2, pickCos_eq h1 h2]
    · have : j = 2 * p.n - 2 := by omega
      rw [if_neg hj2, if_pos this, ← this, ← (pickLast_eq h1 h2).1]
  have hsin : ∀ j < 2 * p.n - 1, p'.sinPhi j = sin (p'.phi j) := by
    intro j hj
    rw [← hp]
    dsimp only
    obtain ⟨h1, h2⟩ := hab j (by omega)
    by_cases hj2 : j < 2 * p.n - 2
    · rw [if_pos hj2, if_pos hj2, pickSin_eq]
    · have : j = 2 * p.n - 2 := by omega
      rw [if_neg hj2, if_pos this, if_neg hj2, if_pos this, ← this, ← (pickLast_eq h1 h2).2]
  refine ⟨?_, hpn, by rw [← hp], hpI⟩
  constructor
  · rw [hpn]; exact hn
  · rw [hpn, hpI]; exact hI
  · rw [hpn]
    intro i hi
    have h1 := hσ i hi
    have h2 := hxy i hi
    rw [cart_eq _ hi] at h2
    have h3 : sph (2 * p.n) x 0 = len (2 * p.n) x := by simp [sph]
    rw [h3] at h2
    rw [← h2] at h1
    rw [mul_left_cancel₀ hx h1]
    exact spherePoint_congr (fun j hj => (hphi j hj).symm) hi
  · rw [hpn]; exact hsin
  · rw [hpn, hpI]; exact hrho
  · rw [hpn]
    intro i hi k hk
    have : p'.dSigmaDPhi i k = calculateDSigmaDPhi p.n p'.cosPhi p'.sinPhi i k := by rw [← hp]
    rw [this, calculateDSigmaDPhi_eq]
    exact D_congr hcos hsin (by omega) hk
  · intro k
    rw [← hp]
    rfl

/-- **C36** the derivative of the intensity with respect to an angle. -/
theorem dRho_derivative {p : PS} (h : Consistent p) (k : ℕ) (hk : k < 2 * p.n - 1) :
    HasDerivAt (fun t => intensity p.n p.integral (spherePoint (2 * p.n) (Function.update p.phi k t))) (calculateDRhoDPhi p k) (p.phi k) := by
  have hd := hasDerivAt_intensity h.herm (fun t => spherePoint (2 * p.n) (Function.update p.phi k t))
    (fun i => p.dSigmaDPhi i k) (p.phi k) (fun i hi => by
      rw [h.dSigma i hi k hk]
      exact hasDerivAt_S (2 * p.n - 1) p.phi k i hk (by omega))
  refine hd.congr_deriv ?_
  simp only [Function.update_eq_self]
  unfold calculateDRhoDPhi
  have hσ := h.sigma
  have h1 : ∑ alpha ∈ Ico k (2 * p.n), ∑ beta ∈ betaRange p.n alpha, (p.integral (alpha % p.n) (beta % p.n)).re * p.sigma beta * p.dSigmaDPhi alpha k =
      ∑ alpha ∈ range (2 * p.n), ∑ beta ∈ betaRange p.n alpha, (p.integral (alpha % p.n) (beta % p.n)).re * p.sigma beta * p.dSigmaDPhi alpha k := by
    apply Finset.sum_subset
    · intro a ha
      exact Finset.mem_range.2 (Finset.mem_Ico.1 ha).2
    · intro a ha hna
      have ha' := Finset.mem_range.1 ha
      have : a < k := by
        by_contra hc
        exact hna (Finset.mem_Ico.2 ⟨by omega, ha'⟩)
      apply Finset.sum_eq_zero
      intro b _
      rw [h.dSigma a ha' k hk]
      unfold D
      rw [if_pos this, mul_zero]
  rw [h1, sum_betaRange_real h.pos]
  congr 1
  · congr 1
    apply Finset.sum_congr rfl
    intro a ha
    apply Finset.sum_congr rfl
    intro b hb
    have ha' := Finset.mem_range.1 ha
    have hb' := Finset.mem_range.1 hb
    rw [mod_add ha', mod_add hb', Nat.mod_eq_of_lt ha', Nat.mod_eq_of_lt hb', hσ b (by omega), hσ (b + p.n) (by omega)]
  · congr 1
    apply Finset.sum_congr rfl
    intro b hb
    apply Finset.sum_congr rfl
    intro a ha
    have ha' := Finset.mem_range.1 ha
    have hb' := Finset.mem_range.1 hb
    rw [hσ b (by omega), hσ (a + p.n) (by omega)]

theorem intensity_congr {n : ℕ} {I : ℕ → ℕ → ℂ} {σ τ : ℕ → ℝ} (h : ∀ i < 2 * n, σ i = τ i) : intensity n I σ = intensity n I τ := by
  unfold intensity amp
  congr 1
  apply Finset.sum_congr rfl
  intro a ha
  apply Finset.sum_congr rfl
  intro b hb
  have ha' := Finset.mem_range.1 ha
  have hb' := Finset.mem_range.1 hb
  rw [h a (by omega), h b (by omega), h (a + n) (by omega), h (b + n) (by omega)]

theorem Consistent.rho_eq {p : PS} (h : Consistent p) : p.rho = intensity p.n p.integral (spherePoint (2 * p.n) p.phi) := by
  rw [h.rho]
  exact intensity_congr h.sigma

/-- **C36** `getDRDPhi` is *twice* the derivative of `getR` (the code misses a factor 1/2; the property claims the derivative). -/
theorem dR_derivative_partial {p : PS} (h : Consistent p) (hρ : 0 < p.rho) (hN : 0 < p.nEvents) (k : ℕ) (hk : k < 2 * p.n - 1) :
    p.getR = sqrt (p.nEvents / intensity p.n p.integral (spherePoint (2 * p.n) p.phi)) ∧
    HasDerivAt (fun t => sqrt (p.nEvents / intensity p.n p.integral (spherePoint (2 * p.n) (Function.update p.phi k t)))) (p.dRDPhi k / 2) (p.phi k) := by
  refine ⟨by rw [← h.rho_eq]; rfl, ?_⟩
  have hd := dRho_derivative h k hk
  have hr : intensity p.n p.integral (spherePoint (2 * p.n) (Function.update p.phi k (p.phi k))) = p.rho := by
    rw [Function.update_eq_self, ← h.rho_eq]
  have hN' : (0 : ℝ) < p.nEvents := by exact_mod_cast hN
  have hq := (hd.inv (by rw [hr]; exact hρ.ne')).const_mul (p.nEvents : ℝ)
  simp only [Pi.inv_apply] at hq
  have hs := hq.sqrt (by rw [hr]; positivity)
  rw [hr] at hs
  simp only [← div_eq_mul_inv] at hs
  refine hs.congr_deriv ?_
  rw [h.dR k]
  unfold calculateDRDPhi
  have e1 : sqrt (p.nEvents * p.rho) = p.nEvents / sqrt (p.nEvents / p.rho) := by
    rw [eq_div_iff (by positivity), ← sqrt_mul (by positivity)]
    rw [show (p.nEvents : ℝ) * p.rho * (p.nEvents / p.rho) = p.nEvents ^ 2 by field_simp]
    exact sqrt_sq hN'.le
  rw [e1]
  have : sqrt (p.nEvents / p.rho) ≠ 0 := by positivity
  field_simp

/-- **C36** the tangent vectors are orthogonal and `getDASphereHat` is, up to sign, the product of their lengths: the area element of the sphere. -/
theorem sphere_area {p : PS} (h : Consistent p) :
    (∀ k < 2 * p.n - 1, ∀ l < 2 * p.n - 1, k ≠ l → ∑ i ∈ range (2 * p.n), p.dSigmaDPhi i k * p.dSigmaDPhi i l = 0) ∧
    ∏ k ∈ range (2 * p.n - 1), sqrt (∑ i ∈ range (2 * p.n), p.dSigmaDPhi i k ^ 2) = |p.getDASphereHat| := by
  have hn := h.pos
  have hr : range (2 * p.n) = range (2 * p.n - 1 + 1) := by rw [show 2 * p.n - 1 + 1 = 2 * p.n by omega]
  have hg : ∀ k < 2 * p.n - 1, ∀ l < 2 * p.n - 1, ∑ i ∈ range (2 * p.n), p.dSigmaDPhi i k * p.dSigmaDPhi i l =
      if k = l then ∏ j ∈ range k, sin (p.phi j) ^ 2 else 0 := by
    intro k hk l hl
    rw [← sum_D_D (2 * p.n - 1) (fun j => cos (p.phi j)) (fun j => sin (p.phi j)) (fun j _ => by rw [add_comm]; exact sin_sq_add_cos_sq _) k l hk hl, hr]
    apply Finset.sum_congr rfl
    intro i hi
    have hi' := Finset.mem_range.1 hi
    rw [h.dSigma i (by omega) k hk, h.dSigma i (by omega) l hl]
  refine ⟨fun k hk l hl hkl => by rw [hg k hk l hl, if_neg hkl], ?_⟩
  have hlen : ∀ k ∈ range (2 * p.n - 1), sqrt (∑ i ∈ range (2 * p.n), p.dSigmaDPhi i k ^ 2) = ∏ j ∈ range k, |p.sinPhi j| := by
    intro k hk
    have hk' := Finset.mem_range.1 hk
    have := hg k hk' k hk'
    rw [if_pos rfl] at this
    simp only [← pow_two] at this
    rw [this, Finset.prod_pow, sqrt_sq_eq_abs, Finset.abs_prod]
    apply Finset.prod_congr rfl
    intro j hj
    have hj' := Finset.mem_range.1 hj
    rw [h.sinPhi j (by omega)]
  rw [Finset.prod_congr rfl hlen]
  unfold PS.getDASphereHat
  simp only [Finset.prod_const, Finset.card_range, Finset.abs_prod, abs_pow]
  have : ∀ (M : ℕ) (f : ℕ → ℝ), ∏ k ∈ range (M + 1), ∏ j ∈ range k, f j = ∏ i ∈ range M, f i ^ (M - i) := by
    intro M f
    induction M with
    | zero => simp
    | succ M ih =>
      rw [Finset.prod_range_succ, ih, Finset.prod_range_succ (fun j => f j) M, Finset.prod_range_succ (fun i => f i ^ (M + 1 - i)) M, ← mul_assoc,
        ← Finset.prod_mul_distrib]
      congr 1
      · apply Finset.prod_congr rfl
        intro i hi
        have := Finset.mem_range.1 hi
        rw [show M + 1 - i = M - i + 1 by omega, pow_succ]
      · rw [show M + 1 - M = 1 by omega, pow_one]
  have h2 := this (2 * p.n - 2) (fun j => |p.sinPhi j|)
  rw [show 2 * p.n - 2 + 1 = 2 * p.n - 1 by omega] at h2
  exact h2

/-- **C36** length of the tangent vector `d(R σ)/dφ_k` of the code. -/
theorem getDS_sq {p : PS} (h : Consistent p) (hρ : 0 < p.rho) (k : ℕ) (hk : k < 2 * p.n - 1) :
    p.getDS k = sqrt (p.dRDPhi k ^ 2 + p.nEvents / p.rho * ∏ j ∈ range k, sin (p.phi j) ^ 2) := by
  unfold PS.getDS
  congr 1
  have hn := h.pos
  have hr : range (2 * p.n) = range (2 * p.n - 1 + 1) := by rw [show 2 * p.n - 1 + 1 = 2 * p.n by omega]
  have hcs : ∀ j < 2 * p.n - 1, cos (p.phi j) ^ 2 + sin (p.phi j) ^ 2 = 1 := fun j _ => by rw [add_comm]; exact sin_sq_add_cos_sq _
  have e1 := sum_S_sq (2 * p.n - 1) (fun j => cos (p.phi j)) (fun j => sin (p.phi j)) hcs
  have e2 := sum_S_D (2 * p.n - 1) (fun j => cos (p.phi j)) (fun j => sin (p.phi j)) hcs k hk
  have e3 := sum_D_D (2 * p.n - 1) (fun j => cos (p.phi j)) (fun j => sin (p.phi j)) hcs k k hk hk
  rw [if_pos rfl] at e3
  have hR : p.getR * p.getR = p.nEvents / p.rho := mul_self_sqrt (by positivity)
  rw [← e3, ← hR, hr]
  have : ∀ i ∈ range (2 * p.n - 1 + 1), (p.dRDPhi k * p.sigma i + p.getR * p.dSigmaDPhi i k) * (p.dRDPhi k * p.sigma i + p.getR * p.dSigmaDPhi i k) =
      p.dRDPhi k ^ 2 * S (2 * p.n - 1) (fun j => cos (p.phi j)) (fun j => sin (p.phi j)) i ^ 2 +
      2 * p.dRDPhi k * p.getR * (S (2 * p.n - 1) (fun j => cos (p.phi j)) (fun j => sin (p.phi j)) i * D (2 * p.n - 1) (fun j => cos (p.phi j)) (fun j => sin (p.phi j)) i k) +
      p.getR * p.getR * (D (2 * p.n - 1) (fun j => cos (p.phi j)) (fun j => sin (p.phi j)) i k * D (2 * p.n - 1) (fun j => cos (p.phi j)) (fun j => sin (p.phi j)) i k) := by
    intro i hi
    have hi' := Finset.mem_range.1 hi
    rw [h.dSigma i (by omega) k hk, h.sigma i (by omega), spherePoint_eq]
    ring
  rw [Finset.sum_congr rfl this, Finset.sum_add_distrib, Finset.sum_add_distrib, ← Finset.mul_sum, ← Finset.mul_sum, ← Finset.mul_sum, e1, e2]
  ring

/-- **C36** orthogonal waves of equal norm `c`: the surface of constant number of events is a sphere, and its area element is the one of the unit
sphere with the radius `1/sqrt c` (so `getDARatio` is 1 for orthonormal waves). -/
theorem getDAHat_isotropic {p : PS} (h : Consistent p) (hN : 0 < p.nEvents) (c : ℝ) (hc : 0 < c)
    (hI : ∀ a < p.n, ∀ b < p.n, p.integral a b = if a = b then (c : ℂ) else 0) :
    p.getDAHat * sqrt c ^ (2 * p.n - 1) = |p.getDASphereHat| := by
  have hn := h.pos
  have hint : ∀ φ : ℕ → ℝ, intensity p.n p.integral (spherePoint (2 * p.n) φ) = c := by
    intro φ
    have hu := spherePoint_unit (m := 2 * p.n) (by omega) φ
    rw [two_mul, Finset.sum_range_add, ← Finset.sum_add_distrib, ← two_mul] at hu
    unfold intensity
    rw [← mul_one c, ← hu, Complex.re_sum, Finset.mul_sum]
    apply Finset.sum_congr rfl
    intro a ha
    rw [Finset.sum_eq_single a]
    · rw [hI a (Finset.mem_range.1 ha) a (Finset.mem_range.1 ha), if_pos rfl]
      simp only [amp, Complex.mul_re, Complex.mul_im, Complex.conj_re, Complex.conj_im, Complex.ofReal_re, Complex.ofReal_im]
      rw [add_comm p.n a]
      ring
    · intro b hb hba
      rw [hI a (Finset.mem_range.1 ha) b (Finset.mem_range.1 hb), if_neg (Ne.symm hba)]
      simp
    · intro hna
      exact absurd ha hna
  have hρ : p.rho = c := by rw [h.rho_eq, hint]
  have hdR : ∀ k < 2 * p.n - 1, p.dRDPhi k = 0 := by
    intro k hk
    have hd := dRho_derivative h k hk
    simp only [hint] at hd
    rw [h.dR k]
    unfold calculateDRDPhi
    rw [hd.unique (hasDerivAt_const _ _), mul_zero]
  have hN' : (0 : ℝ) < p.nEvents := by exact_mod_cast hN
  rw [← (sphere_area h).2]
  unfold PS.getDAHat
  have hpow : sqrt c ^ (2 * p.n - 1) = ∏ _k ∈ range (2 * p.n - 1), sqrt c := by simp
  rw [hpow, ← Finset.prod_mul_distrib]
  apply Finset.prod_congr rfl
  intro k hk
  have hk' := Finset.mem_range.1 hk
  unfold PS.getDSHat
  rw [getDS_sq h (by rw [hρ]; exact hc) k hk', hdR k hk', hρ]
  have e3 := sum_D_D (2 * p.n - 1) (fun j => cos (p.phi j)) (fun j => sin (p.phi j)) (fun j _ => by rw [add_comm]; exact sin_sq_add_cos_sq _) k k hk' hk'
  rw [if_pos rfl] at e3
  have : ∑ i ∈ range (2 * p.n), p.dSigmaDPhi i k ^ 2 = ∏ j ∈ range k, sin (p.phi j) ^ 2 := by
    rw [← e3, show range (2 * p.n) = range (2 * p.n - 1 + 1) by rw [show 2 * p.n - 1 + 1 = 2 * p.n by omega]]
    apply Finset.sum_congr rfl
    intro i hi
    have hi' := Finset.mem_range.1 hi
    rw [h.dSigma i (by omega) k hk', pow_two]
  rw [this]
  have e4 : (0 : ℝ) ^ 2 + p.nEvents / c * ∏ j ∈ range k, sin (p.phi j) ^ 2 = (p.nEvents / c) * ∏ j ∈ range k, sin (p.phi j) ^ 2 := by ring
  rw [e4, sqrt_mul (by positivity), sqrt_div hN'.le]
  have : sqrt (p.nEvents : ℝ) ≠ 0 := by positivity
  have : sqrt c ≠ 0 := by positivity
  field_simp

/-- random numbers (1, 1, 0, 0). -/
noncomputable def xEx : ℕ → ℝ := fun i => if i < 2 then 1 else 0

/-- two orthogonal waves with integrals 1 and 2, one event. -/
noncomputable def matEx : ℕ → ℕ → ℂ := fun a b => if a = b then (if a = 0 then 1 else 2) else 0

theorem xEx_tail : tailLen 4 xEx 0 = sqrt 2 ∧ tailLen 4 xEx 1 = 1 ∧ tailLen 4 xEx 2 = 0 := by
  unfold tailLen xEx
  refine ⟨?_, ?_, ?_⟩
  · congr 1
    rw [Finset.sum_Ico_succ_top (by norm_num), Finset.sum_Ico_succ_top (by norm_num), Finset.sum_Ico_succ_top (by norm_num), Finset.sum_Ico_succ_top (by norm_num), Finset.Ico_self,
      Finset.sum_empty, if_pos (by norm_num), if_pos (by norm_num), if_neg (by norm_num), if_neg (by norm_num)]
    norm_num
  · rw [show (∑ k ∈ Ico 1 4, (if k < 2 then (1 : ℝ) else 0) ^ 2) = 1 by 
      rw [Finset.sum_Ico_succ_top (by norm_num), Finset.sum_Ico_succ_top (by norm_num), Finset.sum_Ico_succ_top (by norm_num), Finset.Ico_self,
        Finset.sum_empty, if_pos (by norm_num), if_neg (by norm_num), if_neg (by norm_num)]
      norm_num]
    exact sqrt_one
  · rw [show (∑ k ∈ Ico 2 4, (if k < 2 then (1 : ℝ) else 0) ^ 2) = 0 by rw [show (Ico 2 4) = {2, 3} by decide]; norm_num]
    exact sqrt_zero

theorem matEx_herm : Herm 2 (PS.init 1 2 matEx).integral := by
  intro a ha b hb
  simp only [PS.init, matEx]
  by_cases h : a = b
  · subst h
    rw [if_pos rfl]
    split_ifs
    · simp
    · simp only [Nat.cast_one, div_one]
      exact (Complex.conj_ofReal 2).symm
  · rw [if_neg h, if_neg (Ne.symm h)]
    simp

/-- an object that meets the hypotheses of the theorems above, with a derivative reported by `getDRDPhi` that is not the derivative of `getR`. -/
theorem dR_not_derivative : ∃ p', (PS.init 1 2 matEx).pickUniformAngles xEx = .ok p' ∧ Consistent p' ∧ 0 < p'.rho ∧
    ¬ HasDerivAt (fun t => sqrt (p'.nEvents / intensity p'.n p'.integral (spherePoint (2 * p'.n) (Function.update p'.phi 0 t)))) (p'.dRDPhi 0) (p'.phi 0) := by
  obtain ⟨t0, t1, t2⟩ := xEx_tail
  have hlen : len (2 * (PS.init 1 2 matEx).n) xEx = sqrt 2 := t0
  have h2 : (1 : ℝ) + 1e-10 ≤ sqrt 2 := Real.le_sqrt_of_sq_le (by norm_num)
  have hclear : ∀ i, i ≤ 2 * (PS.init 1 2 matEx).n - 2 → Clear (xEx i) (tailLen (2 * (PS.init 1 2 matEx).n) xEx i) := by
    intro i hi
    have hi' : i ≤ 2 := hi
    have : i = 0 ∨ i = 1 ∨ i = 2 := by omega
    show Clear (xEx i) (tailLen 4 xEx i)
    rcases this with rfl | rfl | rfl
    · right
      rw [t0]
      show (1e-10 : ℝ) ≤ |1 - sqrt 2|
      rw [abs_of_nonpos (by linarith)]
      linarith
    · left; rw [t1]; rfl
    · left; rw [t2]; rfl
  have hne : len (2 * (PS.init 1 2 matEx).n) xEx ≠ 0 := by rw [hlen]; positivity
  obtain ⟨p', hp, hcons, hpn, hpN, hpI⟩ := pickUniformAngles_consistent (PS.init 1 2 matEx) (by simp [PS.init]) matEx_herm xEx hne hclear
  obtain ⟨q, hq, _, hσ, _, _⟩ := pickUniformAngles_spec (PS.init 1 2 matEx) (by simp [PS.init]) matEx_herm xEx hne
  rw [hp] at hq
  obtain rfl := Outcome.ok.inj hq
  replace hpn : p'.n = 2 := hpn
  replace hpN : p'.nEvents = 1 := hpN
  rw [hlen] at hσ
  have hs2 : sqrt 2 ≠ 0 := by positivity
  have hsig := hcons.sigma
  rw [hpn] at hsig
  have e0 : sqrt 2 * cos (p'.phi 0) = 1 := by
    have := hσ 0 (by simp [PS.init])
    rw [hsig 0 (by norm_num)] at this
    simpa [spherePoint, xEx] using this
  have e1 : sqrt 2 * (sin (p'.phi 0) * cos (p'.phi 1)) = 1 := by
    have := hσ 1 (by simp [PS.init])
    rw [hsig 1 (by norm_num)] at this
    simpa [spherePoint, xEx] using this
  have hs0 : sin (p'.phi 0) ≠ 0 := by
    intro h
    rw [h] at e1
    simp at e1
  have hc0 : cos (p'.phi 0) ≠ 0 := by
    intro h
    rw [h] at e0
    simp at e0
  have hs1 : sin (p'.phi 1) = 0 := by
    have a2 := hσ 2 (by simp [PS.init])
    have a3 := hσ 3 (by simp [PS.init])
    rw [hsig 2 (by norm_num)] at a2
    rw [hsig 3 (by norm_num)] at a3
    simp [spherePoint, xEx, Finset.prod_range_succ, hs0] at a2 a3
    rcases a2 with a2 | a2
    · exact a2
    · rcases a3 with a3 | a3
      · exact a3
      · have := sin_sq_add_cos_sq (p'.phi 2)
        rw [a2, a3] at this
        norm_num at this
  have hc1 : cos (p'.phi 1) ^ 2 = 1 := by
    have := sin_sq_add_cos_sq (p'.phi 1)
    rw [hs1] at this
    linarith
  have hint : ∀ t, intensity p'.n p'.integral (spherePoint (2 * p'.n) (Function.update p'.phi 0 t)) = 1 + sin t ^ 2 := by
    intro t
    have hH : Herm p'.n p'.integral := hcons.herm
    rw [intensity_real hH, hpI, hpn]
    have := sin_sq_add_cos_sq t
    simp [Finset.sum_range_succ, spherePoint, Finset.prod_range_succ, PS.init, matEx, hs1]
    nlinarith
  have hrho : p'.rho = 1 + sin (p'.phi 0) ^ 2 := by
    rw [hcons.rho_eq, ← hint (p'.phi 0), Function.update_eq_self]
  have hρ : 0 < p'.rho := by rw [hrho]; positivity
  refine ⟨p', hp, hcons, hρ, fun hbad => ?_⟩
  have hgood := (dR_derivative_partial hcons hρ (by omega) 0 (by omega)).2
  have hz : p'.dRDPhi 0 = 0 := by linarith [hbad.unique hgood]
  have hd := dRho_derivative hcons 0 (by omega)
  simp only [hint] at hd
  have hd' : HasDerivAt (fun t => 1 + sin t ^ 2) (2 * sin (p'.phi 0) * cos (p'.phi 0)) (p'.phi 0) := by
    refine (((hasDerivAt_sin (p'.phi 0)).pow 2).const_add 1).congr_deriv ?_
    push_cast
    ring
  rw [hcons.dR 0] at hz
  unfold calculateDRDPhi at hz
  rw [hd.unique hd', hpN] at hz
  have : sqrt ((1 : ℕ) * p'.rho) ≠ 0 := by
    have : (0 : ℝ) < (1 : ℕ) * p'.rho := by simpa using hρ
    positivity
  have h3 : -(sqrt ((1 : ℕ) * p'.rho) / (p'.rho * p'.rho)) ≠ 0 := neg_ne_zero.2 (div_ne_zero this (by positivity))
  rcases mul_eq_zero.1 hz with h | h
  · exact h3 h
  · rcases mul_eq_zero.1 h with h | h
    · rcases mul_eq_zero.1 h with h | h
      · norm_num at h
      · exact hs0 h
    · exact hc0 h

/-- one wave, one event, after construction and `setAngles`: the radius is not the one of the amplitude (which has `rho` 1 for every angle). -/
theorem setAngles_wrong_rho : ∃ p', (PS.init 1 1 (fun _ _ => 1)).setAngles (fun _ => π / 3) = .ok p' ∧ p'.rho = 1 / 4 ∧
    intensity 1 (PS.init 1 1 (fun _ _ => 1)).integral (spherePoint 2 (fun _ => π / 3)) = 1 := by
  have hI : Herm 1 (PS.init 1 1 (fun _ _ => 1)).integral := by
    intro a _ b _
    simp [PS.init]
  obtain ⟨p', hp, h1, h2, h3, _⟩ := setAngles_spec_partial (PS.init 1 1 (fun _ _ => 1)) (by simp [PS.init]) hI (fun _ => π / 3)
  refine ⟨p', hp, ?_, ?_⟩
  · have e0 : p'.sigma 0 = cos (π / 3) := by
      have := h1 0 (by simp [PS.init])
      simpa [spherePoint, PS.init] using this
    have e1 : p'.sigma 1 = 0 := h2
    rw [h3]
    show intensity 1 (PS.init 1 1 (fun _ _ => 1)).integral p'.sigma = 1 / 4
    rw [intensity_real hI]
    simp [PS.init, e0, e1]
    norm_num
  · rw [intensity_real hI]
    have h3 : sqrt 3 * sqrt 3 = 3 := mul_self_sqrt (by norm_num)
    simp [PS.init, spherePoint]
    nlinarith

end Rpwa.PSpace

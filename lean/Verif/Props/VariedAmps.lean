import Verif.Spec.VariedAmps
import Verif.Lemmas.Outcome
import Verif.Props.BestResult
import Verif.Props.FitExamples
import Mathlib.Tactic.Linarith
import Mathlib.Tactic.FieldSimp
import Mathlib.MeasureTheory.Integral.Bochner.Set
import Mathlib.Tactic.Ring
/-! # C66: random variation of production amplitudes -/
namespace Rpwa.Fit

open Finset MeasureTheory

variable {r : FitResult} {decomp : Mat ℝ → ℕ → ℕ → ℝ}

/-- the call returns; only the production amplitudes change, every component that is a parameter by the corresponding entry of `U x`. -/
theorem varied_returns (hg : GoodIndices r) (x : ℕ → ℝ) : ∃ r', r.variedProdAmps decomp x = .ok r' ∧ r' = r.withAmps r'.prodAmps ∧
    ∀ p < r.nmbProdAmps, ∀ b < 2, part (r'.prodAmps p) b = part (r.prodAmps p) b +
      if 0 ≤ parOf r p b then ∑ k ∈ range r.cov.nRows, decomp r.cov (parOf r p b).toNat k * x k else 0 := by
  have hs : ∀ (y : ℕ → ℝ) (v : ℝ) (j : ℤ), j < r.cov.nRows → FitResult.shifted y r.cov.nRows v j = .ok (v + if 0 ≤ j then y j.toNat else 0) := by
    intro y v j hj
    unfold FitResult.shifted
    by_cases h : -1 < j
    · rw [if_pos h, if_pos hj, if_pos (by omega)]
    · rw [if_neg h, if_neg (by omega), add_zero]
  obtain ⟨amps, h1, h2⟩ := Rpwa.Best.mapM_ok_of (r.variedAmp (FitResult.shift (decomp r.cov) r.cov.nRows x) r.cov.nRows)
    (fun p z => ∀ b < 2, part z b = part (r.prodAmps p) b +
      if 0 ≤ parOf r p b then ∑ k ∈ range r.cov.nRows, decomp r.cov (parOf r p b).toNat k * x k else 0) (List.range r.nmbProdAmps) (by
    intro p hp
    have hp := List.mem_range.1 hp
    have k0 := hg.hrange p hp 0 (by omega)
    have k1 := hg.hrange p hp 1 (by omega)
    unfold parOf at k0 k1
    rw [if_pos rfl] at k0
    rw [if_neg (by omega)] at k1
    unfold FitResult.variedAmp
    rw [if_neg (by have := hg.hcount; omega), hs _ _ _ k0]
    simp only [Outcome.ok_bind]
    rw [hs _ _ _ k1]
    simp only [Outcome.ok_bind]
    refine ⟨_, rfl, ?_⟩
    intro b hb
    have : b = 0 ∨ b = 1 := by omega
    rcases this with rfl | rfl
    · unfold part parOf FitResult.shift; simp only [if_true]
    · unfold part parOf FitResult.shift; simp only [one_ne_zero, if_false])
  refine ⟨{ r with prodAmps := fun k => amps.getD k (r.prodAmps k) }, by unfold FitResult.variedProdAmps; dsimp only; rw [h1]; rfl, rfl, ?_⟩
  intro p hp
  have hlen := h2.length_eq
  simp only [List.length_range] at hlen
  have := (List.forall₂_iff_get.1 h2).2 p (by simpa using hp) (by omega)
  simp only [List.get_eq_getElem, List.getElem_range] at this
  intro b hb
  have e : (fun k => amps.getD k (r.prodAmps k)) p = amps[p]'(by omega) := List.getD_eq_getElem _ _ _
  show part ((fun k => amps.getD k (r.prodAmps k)) p) b = _
  rw [e]
  exact this b hb

/-- shift of a component. -/
noncomputable def delta (decomp : Mat ℝ → ℕ → ℕ → ℝ) (r : FitResult) (x : ℕ → ℝ) (p b : ℕ) : ℝ :=
  match r.variedProdAmps decomp x with
  | .ok r' => part (r'.prodAmps p) b - part (r.prodAmps p) b
  | _ => 0

theorem delta_eq (hg : GoodIndices r) (x : ℕ → ℝ) (p b : ℕ) (hp : p < r.nmbProdAmps) (hb : b < 2) :
    delta decomp r x p b = if 0 ≤ parOf r p b then ∑ k ∈ range r.cov.nRows, decomp r.cov (parOf r p b).toNat k * x k else 0 := by
  obtain ⟨r', h1, _, h3⟩ := varied_returns (decomp := decomp) hg x
  unfold delta
  rw [h1]
  simp only
  rw [h3 p hp b hb]
  ring

/-- the variation does not shift the mean. -/
theorem varied_mean {Ω : Type*} [MeasurableSpace Ω] {μ : Measure Ω} {X : Ω → ℕ → ℝ} (hg : GoodIndices r) (hX : Standard μ r.cov.nRows X) (p b : ℕ)
    (hp : p < r.nmbProdAmps) (hb : b < 2) : ∫ ω, delta decomp r (X ω) p b ∂μ = 0 := by
  simp only [delta_eq hg _ p b hp hb]
  split_ifs
  · rw [integral_finset_sum _ fun k hk => (hX.hint k (mem_range.1 hk)).const_mul _]
    refine sum_eq_zero fun k hk => ?_
    rw [integral_const_mul, hX.hmean k (mem_range.1 hk), mul_zero]
  · simp

/-- covariance of two varied components: an element of `U Uᵀ`. -/
theorem varied_cov {Ω : Type*} [MeasurableSpace Ω] {μ : Measure Ω} {X : Ω → ℕ → ℝ} (hg : GoodIndices r) (hX : Standard μ r.cov.nRows X) (p b q b' : ℕ)
    (hp : p < r.nmbProdAmps) (hb : b < 2) (hq : q < r.nmbProdAmps) (hb' : b' < 2) :
    ∫ ω, delta decomp r (X ω) p b * delta decomp r (X ω) q b' ∂μ = if 0 ≤ parOf r p b ∧ 0 ≤ parOf r q b' then
      ∑ k ∈ range r.cov.nRows, decomp r.cov (parOf r p b).toNat k * decomp r.cov (parOf r q b').toNat k else 0 := by
  simp only [delta_eq hg _ p b hp hb, delta_eq hg _ q b' hq hb']
  by_cases h1 : 0 ≤ parOf r p b
  · by_cases h2 : 0 ≤ parOf r q b'
    · rw [if_pos ⟨h1, h2⟩]
      simp only [if_pos h1, if_pos h2]
      set i := (parOf r p b).toNat
      set j := (parOf r q b').toNat
      have e : ∀ ω, (∑ k ∈ range r.cov.nRows, decomp r.cov i k * X ω k) * (∑ k ∈ range r.cov.nRows, decomp r.cov j k * X ω k) =
          ∑ k ∈ range r.cov.nRows, ∑ l ∈ range r.cov.nRows, (decomp r.cov i k * decomp r.cov j l) * (X ω k * X ω l) := by
        intro ω
        rw [sum_mul_sum]
        exact sum_congr rfl fun k _ => sum_congr rfl fun l _ => by ring
      simp only [e]
      rw [integral_finset_sum _ fun k hk => integrable_finset_sum _ fun l hl => (hX.hint2 k (mem_range.1 hk) l (mem_range.1 hl)).const_mul _]
      refine sum_congr rfl fun k hk => ?_
      rw [integral_finset_sum _ fun l hl => (hX.hint2 k (mem_range.1 hk) l (mem_range.1 hl)).const_mul _]
      rw [sum_eq_single k]
      · rw [integral_const_mul, hX.hcov k (mem_range.1 hk) k (mem_range.1 hk), if_pos rfl, mul_one]
      · intro l hl hlk
        rw [integral_const_mul, hX.hcov k (mem_range.1 hk) l (mem_range.1 hl), if_neg (Ne.symm hlk), mul_zero]
      · intro h; exact absurd hk h
    · rw [if_neg (fun h => h2 h.2)]
      simp [h2]
  · rw [if_neg (fun h => h1 h.1)]
    simp [h1]

/-! ### `U Uᵀ` and `Uᵀ U` -/

theorem chol_upper_zero {n : ℕ} {C U : ℕ → ℕ → ℝ} (hc : IsCholesky n C U) {i : ℕ} (hi : i < n) (f : ℕ → ℝ) (S : Finset ℕ) (hS : S ⊆ range n)
    (hdiag : ∀ k < i, U k i = 0) (hiS : i ∈ S) : ∑ k ∈ S, U k i * f k = U i i * f i := by
  refine sum_eq_single i ?_ (fun h => absurd hiS h)
  intro k hk hki
  rcases lt_or_gt_of_ne hki with h | h
  · rw [hdiag k h, zero_mul]
  · rw [hc.hupper k (mem_range.1 (hS hk)) i h, zero_mul]

/-- a diagonal covariance matrix has a diagonal factor. -/
theorem chol_diag_of_diag {n : ℕ} {C U : ℕ → ℕ → ℝ} (hc : IsCholesky n C U) (hC : ∀ i < n, ∀ j < n, i ≠ j → C i j = 0) :
    ∀ i < n, ∀ j < n, i ≠ j → U i j = 0 := by
  intro i
  induction i using Nat.strong_induction_on with
  | _ i ih =>
    intro hi j hj hij
    rcases lt_or_gt_of_ne hij with h | h
    · have h1 := hc.hprod i hi j hj
      rw [hC i hi j hj hij, chol_upper_zero hc hi (fun k => U k j) (range n) subset_rfl (fun k hk => ih k hk (by omega) i hi (by omega)) (mem_range.2 hi)] at h1
      exact (mul_eq_zero.1 h1).resolve_left (hc.hpos i hi).ne'
    · exact hc.hupper i hi j h

/-- if `U Uᵀ = Uᵀ U` then `U` is diagonal. -/
theorem chol_diag_of_comm {n : ℕ} {C U : ℕ → ℕ → ℝ} (hc : IsCholesky n C U) (h : ∀ i < n, ∑ k ∈ range n, U i k * U i k = C i i) :
    ∀ i < n, ∀ j < n, i ≠ j → U i j = 0 := by
  intro i
  induction i using Nat.strong_induction_on with
  | _ i ih =>
    intro hi j hj hij
    have h1 := h i hi
    rw [← hc.hprod i hi i hi, chol_upper_zero hc hi (fun k => U k i) (range n) subset_rfl (fun k hk => ih k hk (by omega) i hi (by omega)) (mem_range.2 hi)] at h1
    rw [← add_sum_erase (range n) (fun k => U i k * U i k) (mem_range.2 hi)] at h1
    have h2 : ∑ k ∈ (range n).erase i, U i k * U i k = 0 := by linarith
    have h3 := (sum_eq_zero_iff_of_nonneg fun k _ => mul_self_nonneg (U i k)).1 h2 j (mem_erase.2 ⟨Ne.symm hij, mem_range.2 hj⟩)
    exact mul_self_eq_zero.1 h3

/-- **C66.** The variation has the covariances of the fit only if the covariance matrix is diagonal: `U x` has covariance `U Uᵀ`, the matrix is `Uᵀ U`. -/
theorem varied_cov_right_iff {Ω : Type*} [MeasurableSpace Ω] {μ : Measure Ω} {X : Ω → ℕ → ℝ} (hg : GoodIndices r) (hX : Standard μ r.cov.nRows X)
    (hc : IsCholesky r.cov.nRows r.cov.entry (decomp r.cov)) :
    (∀ p < r.nmbProdAmps, ∀ b < 2, ∀ q < r.nmbProdAmps, ∀ b' < 2,
      ∫ ω, delta decomp r (X ω) p b * delta decomp r (X ω) q b' ∂μ = compCov r p b q b') ↔
    ∀ i < r.cov.nRows, ∀ j < r.cov.nRows, i ≠ j → r.cov.entry i j = 0 := by
  have hcomp : ∀ p b q b', compCov r p b q b' = if 0 ≤ parOf r p b ∧ 0 ≤ parOf r q b' then r.cov.entry (parOf r p b).toNat (parOf r q b').toNat else 0 :=
    fun p b q b' => rfl
  constructor
  · intro h
    have hd := chol_diag_of_comm hc (by
      intro i hi
      obtain ⟨p, hp, b, hb, hpar⟩ := hg.hall i hi
      have := h p hp b hb p hp b hb
      rw [varied_cov hg hX p b p b hp hb hp hb, hcomp, hpar, if_pos (by omega), if_pos (by omega)] at this
      simpa using this)
    intro i hi j hj hij
    rw [← hc.hprod i hi j hj]
    refine sum_eq_zero fun k hk => ?_
    have hk := mem_range.1 hk
    by_cases hki : k = i
    · rw [hki, hd i hi j hj hij, mul_zero]
    · rw [hd k hk i hi hki, zero_mul]
  · intro hC p hp b hb q hq b' hb'
    rw [varied_cov hg hX p b q b' hp hb hq hb', hcomp]
    have hd := chol_diag_of_diag hc hC
    by_cases h : 0 ≤ parOf r p b ∧ 0 ≤ parOf r q b'
    · rw [if_pos h, if_pos h]
      have h1 := hg.hrange p hp b hb
      have h2 := hg.hrange q hq b' hb'
      obtain ⟨i, hi⟩ := Int.eq_ofNat_of_zero_le h.1
      obtain ⟨j, hj⟩ := Int.eq_ofNat_of_zero_le h.2
      rw [hi, hj]
      rw [hi] at h1
      rw [hj] at h2
      have hi' : i < r.cov.nRows := by exact_mod_cast h1
      have hj' : j < r.cov.nRows := by exact_mod_cast h2
      simp only [Int.toNat_natCast]
      rw [← hc.hprod i hi' j hj']
      have e : ∀ k ∈ range r.cov.nRows, decomp r.cov i k * decomp r.cov j k = decomp r.cov k i * decomp r.cov k j := by
        intro k hk
        have hk := mem_range.1 hk
        by_cases hki : k = i
        · by_cases hkj : k = j
          · rw [← hki, ← hkj]
          · rw [hd j hj' k hk (Ne.symm hkj), hd k hk j hj' hkj, mul_zero, mul_zero]
        · rw [hd i hi' k hk (Ne.symm hki), hd k hk i hi' hki, zero_mul, zero_mul]
      exact sum_congr rfl e
    · rw [if_neg h, if_neg h]

/-- what is right for every covariance matrix: the sum of the variances of all parameters. -/
theorem varied_total_variance {n : ℕ} {C U : ℕ → ℕ → ℝ} (hc : IsCholesky n C U) : ∑ i ∈ range n, ∑ k ∈ range n, U i k * U i k = ∑ i ∈ range n, C i i := by
  rw [sum_comm]
  exact sum_congr rfl fun i hi => hc.hprod i (mem_range.1 hi) i (mem_range.1 hi)

/-- the last parameter is varied by its error with all other parameters fixed, which is at most its error. -/
theorem varied_last_too_small {n : ℕ} {C U : ℕ → ℕ → ℝ} (hc : IsCholesky (n + 1) C U) :
    ∑ k ∈ range (n + 1), U n k * U n k ≤ C n n ∧ (∑ k ∈ range (n + 1), U n k * U n k = C n n ↔ ∀ k < n, U k n = 0) := by
  have h1 : ∑ k ∈ range (n + 1), U n k * U n k = U n n * U n n := by
    rw [sum_range_succ, sum_eq_zero, zero_add]
    intro k hk
    rw [hc.hupper n (by omega) k (mem_range.1 hk), zero_mul]
  have h2 := hc.hprod n (by omega) n (by omega)
  rw [sum_range_succ] at h2
  have h3 : 0 ≤ ∑ k ∈ range n, U k n * U k n := sum_nonneg fun k _ => mul_self_nonneg _
  rw [h1, ← h2]
  refine ⟨by linarith, ?_⟩
  constructor
  · intro h k hk
    have : ∑ k ∈ range n, U k n * U k n = 0 := by linarith
    exact mul_self_eq_zero.1 ((sum_eq_zero_iff_of_nonneg fun k _ => mul_self_nonneg (U k n)).1 this k (mem_range.2 hk))
  · intro h
    have : ∑ k ∈ range n, U k n * U k n = 0 := sum_eq_zero fun k hk => by rw [h k (mem_range.1 hk), zero_mul]
    linarith

/-- variances 1 and 2 with covariance 1: the first parameter is varied with variance 2, the second with variance 1. -/
theorem varied_swapped_example : IsCholesky 2 (fun i j => if i = 1 ∧ j = 1 then 2 else 1) (fun i j => if i = 1 ∧ j = 0 then 0 else 1) ∧
    (∑ k ∈ range 2, (if 0 = 1 ∧ k = 0 then (0 : ℝ) else 1) * (if 0 = 1 ∧ k = 0 then (0 : ℝ) else 1) = 2) ∧
    ∑ k ∈ range 2, (if 1 = 1 ∧ k = 0 then (0 : ℝ) else 1) * (if 1 = 1 ∧ k = 0 then (0 : ℝ) else 1) = 1 := by
  refine ⟨⟨?_, ?_, ?_⟩, ?_, ?_⟩
  · intro i hi j hj
    have : i = 1 ∧ j = 0 := by omega
    rw [if_pos this]
  · intro i hi
    rw [if_neg (by omega)]; norm_num
  · intro i hi j hj
    have h1 : i = 0 ∨ i = 1 := by omega
    have h2 : j = 0 ∨ j = 1 := by omega
    rcases h1 with rfl | rfl <;> rcases h2 with rfl | rfl <;> norm_num [sum_range_succ]
  · norm_num [sum_range_succ]
  · norm_num [sum_range_succ]

/-! ### the hypotheses can be met -/

/-- points `±√n e_i`, all with probability `1/(2n)`. -/
theorem standard_exists (n : ℕ) (hn : 0 < n) : ∃ X : Fin n × Bool → ℕ → ℝ, Standard (ENNReal.ofReal (1 / (2 * n)) • Measure.count) n X := by
  refine ⟨fun ω i => if ω.1.val = i then (if ω.2 then Real.sqrt n else -Real.sqrt n) else 0, ?_⟩
  set μ : Measure (Fin n × Bool) := ENNReal.ofReal (1 / (2 * n)) • Measure.count with hμ
  have hfin : IsFiniteMeasure μ := by
    refine ⟨?_⟩
    rw [hμ, Measure.smul_apply, smul_eq_mul]
    exact ENNReal.mul_lt_top ENNReal.ofReal_lt_top (Measure.count_apply_lt_top.2 Set.finite_univ)
  have hI : ∀ f : Fin n × Bool → ℝ, Integrable f μ := fun f => Integrable.of_finite
  have hpos : (0 : ℝ) ≤ 1 / (2 * n) := by positivity
  have hint : ∀ f : Fin n × Bool → ℝ, ∫ ω, f ω ∂μ = (1 / (2 * n)) * ∑ i : Fin n, (f (i, true) + f (i, false)) := by
    intro f
    rw [integral_fintype (hI f)]
    have : ∀ ω, μ.real {ω} = 1 / (2 * n) := by
      intro ω
      rw [hμ, Measure.real, Measure.smul_apply, Measure.count_singleton, smul_eq_mul, mul_one, ENNReal.toReal_ofReal hpos]
    simp only [this, smul_eq_mul]
    rw [← mul_sum, Fintype.sum_prod_type]
    simp
  have hn' : (n : ℝ) ≠ 0 := by exact_mod_cast hn.ne'
  refine ⟨fun i _ => hI _, ?_, fun i _ j _ => hI _, ?_⟩
  · intro i _
    rw [hint]
    rw [sum_eq_zero, mul_zero]
    intro k _
    by_cases h : k.val = i <;> simp [h]
  · intro i hi j hj
    rw [hint]
    by_cases hij : i = j
    · subst hij
      rw [if_pos rfl, sum_eq_single (⟨i, hi⟩ : Fin n)]
      · simp
        field_simp
        ring
      · intro k _ hk
        have : k.val ≠ i := fun h => hk (Fin.ext h)
        simp [this]
      · intro h; exact absurd (mem_univ _) h
    · rw [if_neg hij, sum_eq_zero, mul_zero]
      intro k _
      by_cases h1 : k.val = i
      · have : k.val ≠ j := fun h => hij (h1.symm.trans h)
        simp [this]
      · simp [h1]

theorem exFit_goodIndices : GoodIndices exFit where
  hcount := le_refl 5
  hsquare := rfl
  hrange := by
    show ∀ p < 5, ∀ b < 2, (if b = 0 then (([(0, -1), (1, 2), (3, 4), (5, 6), (7, -1)] : List (ℤ × ℤ)).getD p (-1, -1)).1
      else (([(0, -1), (1, 2), (3, 4), (5, 6), (7, -1)] : List (ℤ × ℤ)).getD p (-1, -1)).2) < ((8 : ℕ) : ℤ)
    decide
  hall := by
    show ∀ j < 8, ∃ p < 5, ∃ b < 2, (if b = 0 then (([(0, -1), (1, 2), (3, 4), (5, 6), (7, -1)] : List (ℤ × ℤ)).getD p (-1, -1)).1
      else (([(0, -1), (1, 2), (3, 4), (5, 6), (7, -1)] : List (ℤ × ℤ)).getD p (-1, -1)).2) = ((j : ℕ) : ℤ)
    decide

/-- a fit with correlated parameters. -/
noncomputable def corrFit : FitResult := { exFit with cov := ⟨8, 8, fun i j => if i = 1 ∧ j = 1 then 2 else if i = j ∨ (i < 2 ∧ j < 2) then 1 else 0⟩ }

noncomputable def corrU : ℕ → ℕ → ℝ := fun i j => if i = j ∨ (i = 0 ∧ j = 1) then 1 else 0

theorem corr_cholesky : IsCholesky corrFit.cov.nRows corrFit.cov.entry corrU := by
  have hC : ∀ i j, corrFit.cov.entry i j = if i = 1 ∧ j = 1 then 2 else if i = j ∨ (i < 2 ∧ j < 2) then 1 else 0 := fun _ _ => rfl
  refine ⟨?_, ?_, ?_⟩
  · intro i _ j hj
    unfold corrU
    rw [if_neg (by omega)]
  · intro i _
    unfold corrU
    rw [if_pos (Or.inl rfl)]; norm_num
  · show ∀ i < 8, ∀ j < 8, ∑ k ∈ range 8, corrU k i * corrU k j = corrFit.cov.entry i j
    intro i hi j hj
    rw [hC]
    interval_cases i <;> interval_cases j <;> simp [sum_range_succ, corrU] <;> norm_num

/-- the samples of this fit do not have the covariances of the fit. -/
theorem varied_cov_wrong : ∃ X : Fin 8 × Bool → ℕ → ℝ, Standard (ENNReal.ofReal (1 / (2 * (8 : ℕ))) • Measure.count) corrFit.cov.nRows X ∧
    ¬ ∀ p < corrFit.nmbProdAmps, ∀ b < 2, ∀ q < corrFit.nmbProdAmps, ∀ b' < 2,
      ∫ ω, delta (fun _ => corrU) corrFit (X ω) p b * delta (fun _ => corrU) corrFit (X ω) q b' ∂(ENNReal.ofReal (1 / (2 * (8 : ℕ))) • Measure.count) =
        compCov corrFit p b q b' := by
  obtain ⟨X, hX⟩ := standard_exists 8 (by decide)
  refine ⟨X, hX, fun h => ?_⟩
  have hg : GoodIndices corrFit := ⟨exFit_goodIndices.hcount, rfl, exFit_goodIndices.hrange, exFit_goodIndices.hall⟩
  have := (varied_cov_right_iff (decomp := fun _ => corrU) hg hX corr_cholesky).1 h 0 (by decide) 1 (by decide) (by decide)
  have h2 : corrFit.cov.entry 0 1 = if 0 = 1 ∧ 1 = 1 then 2 else if 0 = 1 ∨ (0 < 2 ∧ 1 < 2) then 1 else 0 := rfl
  rw [h2] at this
  norm_num at this

end Rpwa.Fit

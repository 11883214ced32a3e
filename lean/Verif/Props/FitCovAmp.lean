import Verif.Props.FitCov
import Mathlib.Analysis.Calculus.Deriv.Inv
import Mathlib.Analysis.Calculus.Deriv.Pow
import Mathlib.Analysis.Calculus.Deriv.Add
import Mathlib.Analysis.Calculus.Deriv.Mul
import Mathlib.Analysis.SpecialFunctions.Sqrt
import Mathlib.Tactic.FieldSimp
/-! # C100: covariance matrices of the data of a resonance fit: production amplitudes -/
namespace Rpwa.FitCov

open scoped BigOperators

/-! ### rows -/

/-- rows of a wave. -/
def paWidth (anchor w : ℕ) : ℕ := if w = anchor then 1 else 2

theorem paWidth_le (anchor w : ℕ) : 1 ≤ paWidth anchor w ∧ paWidth anchor w ≤ 2 := by
  unfold paWidth
  split <;> omega

/-- the waves that are left out before this one. -/
def rank (z : ℕ → Bool) (w : ℕ) : ℕ := ((List.range w).filter z).length

theorem rank_succ (z : ℕ → Bool) (w : ℕ) : rank z (w + 1) = rank z w + if z w then 1 else 0 := by
  unfold rank
  rw [List.range_succ, List.filter_append, List.length_append]
  cases h1 : z w <;> simp [h1]

theorem rank_le (z : ℕ → Bool) : ∀ w, rank z w ≤ w := by
  intro w
  induction w with
  | zero => exact Nat.le_refl _
  | succ w ih => rw [rank_succ]; split <;> omega

theorem rank_lt (z : ℕ → Bool) (a : ℕ) (ha : z a = false) : ∀ w, a < w → rank z w < w := by
  intro w
  induction w with
  | zero => intro h; omega
  | succ w ih =>
    intro h
    rw [rank_succ]
    by_cases h1 : a = w
    · subst h1
      rw [ha, if_neg (by decide)]
      have := rank_le z a
      omega
    · have := ih (by omega)
      split <;> omega

theorem paRow_withRow (n anchor : ℕ) (z : ℕ → Bool) (skip : Bool) (hskip : anchor < n → skip = z anchor) : ∀ t w, w + t = n →
    withRow (paWidth anchor) (paRow anchor skip (w, rank z w)) ((List.range' w t).filter fun v => !z v) =
      ((List.range' w t).filter fun v => !z v).map fun v => (v, paRow anchor skip (v, rank z v)) := by
  intro t
  induction t with
  | zero => intro w _; rfl
  | succ t ih =>
    intro w h
    have ih' := ih (w + 1) (by omega)
    have h1 := rank_le z w
    have h2 := rank_succ z w
    rw [List.range'_succ, List.filter_cons]
    cases hz : z w
    · rw [hz, if_neg (by decide)] at h2
      have hrow : paRow anchor skip (w, rank z w) + paWidth anchor w = paRow anchor skip (w + 1, rank z (w + 1)) := by
        unfold paRow paWidth
        dsimp only
        rw [h2]
        by_cases h3 : w = anchor
        · subst h3
          have h4 := hskip (by omega)
          rw [hz] at h4
          rw [if_pos rfl, if_neg (by omega), if_pos ⟨by omega, h4⟩]
          omega
        · rw [if_neg h3]
          by_cases h4 : w > anchor ∧ skip = false
          · have h5 := hskip (by omega)
            have h6 := rank_lt z anchor (by rw [← h5]; exact h4.2) w h4.1
            rw [if_pos h4, if_pos ⟨by omega, h4.2⟩]
            omega
          · rw [if_neg h4, if_neg (fun h5 => h4 ⟨by omega, h5.2⟩)]
            omega
      rw [if_pos (by rfl), List.map_cons, ← ih', ← hrow]
      rfl
    · rw [hz, if_pos rfl] at h2
      rw [if_neg (by decide), ← ih']
      congr 1
      unfold paRow
      dsimp only
      rw [h2]
      by_cases h3 : w = anchor
      · subst h3
        have h4 := hskip (by omega)
        rw [hz] at h4
        rw [if_neg (fun h5 => by omega), if_neg (fun h5 => by rw [h4] at h5; exact absurd h5.2 (by decide))]
        omega
      · rw [if_congr (show w > anchor ∧ skip = false ↔ w + 1 > anchor ∧ skip = false from
          ⟨fun h5 => ⟨by omega, h5.2⟩, fun h5 => ⟨by omega, h5.2⟩⟩) rfl rfl]
        omega

/-- the waves that are visited. -/
def paWaves (n : ℕ) (z : ℕ → Bool) : List (ℕ × ℕ) := (keptWaves n z).map fun v => (v, rank z v)

theorem mem_paWaves (n : ℕ) (z : ℕ → Bool) (a : ℕ × ℕ) : a ∈ paWaves n z ↔ a.1 < n ∧ z a.1 = false ∧ a.2 = rank z a.1 := by
  unfold paWaves keptWaves
  obtain ⟨v, s⟩ := a
  simp only [List.mem_map, List.mem_filter, List.mem_range, Bool.not_eq_true', Prod.mk.injEq]
  constructor
  · rintro ⟨w, ⟨h1, h2⟩, rfl, rfl⟩
    exact ⟨h1, h2, rfl⟩
  · rintro ⟨h1, h2, h3⟩
    exact ⟨v, ⟨h1, h2⟩, rfl, h3.symm⟩

/-- the rows that are kept. -/
def paKeep (n anchor : ℕ) (z : ℕ → Bool) : List ℕ := (keptWaves n z).flatMap fun w => List.range' (2 * w) (paWidth anchor w)

theorem paKeep_get (n anchor : ℕ) (z : ℕ → Bool) (skip : Bool) (hskip : anchor < n → skip = z anchor) (r x : ℕ) :
    (paKeep n anchor z)[r]? = some x ↔ ∃ i ∈ paWaves n z, ∃ k < paWidth anchor i.1, r = paRow anchor skip i + k ∧ x = 2 * i.1 + k := by
  have hrow : withRow (paWidth anchor) 0 (keptWaves n z) = (keptWaves n z).map fun v => (v, paRow anchor skip (v, rank z v)) := by
    have h := paRow_withRow n anchor z skip hskip n 0 (by omega)
    rw [← List.range_eq_range', show paRow anchor skip (0, rank z 0) = 0 by unfold paRow; dsimp only; omega] at h
    exact h
  constructor
  · intro h
    obtain ⟨e, he, k, hk, h1, h2⟩ := withRow_mem (paWidth anchor) (fun w => 2 * w) _ 0 r x (Nat.zero_le _) h
    rw [hrow] at he
    obtain ⟨v, hv, rfl⟩ := List.mem_map.1 he
    exact ⟨(v, rank z v), List.mem_map.2 ⟨v, hv, rfl⟩, k, hk, h1, h2⟩
  · rintro ⟨i, hi, k, hk, rfl, rfl⟩
    obtain ⟨v, hv, rfl⟩ := List.mem_map.1 hi
    have h := withRow_get (paWidth anchor) (fun w => 2 * w) (keptWaves n z) 0 [] rfl (v, paRow anchor skip (v, rank z v))
      (by rw [hrow]; exact List.mem_map.2 ⟨v, hv, rfl⟩) k hk
    rw [List.nil_append] at h
    exact h

theorem nodup_paKeep (n anchor : ℕ) (z : ℕ → Bool) : (paKeep n anchor z).Nodup := by
  unfold paKeep
  rw [List.nodup_flatMap]
  refine ⟨fun w _ => List.nodup_range', ?_⟩
  refine List.Pairwise.imp ?_ (List.Nodup.filter _ List.nodup_range : (keptWaves n z).Nodup)
  intro v w hvw x h1 h2
  simp only [List.mem_range'_1] at h1 h2
  have h5 := (paWidth_le anchor v).2
  have h6 := (paWidth_le anchor w).2
  omega

theorem mem_paKeep (n anchor : ℕ) (z : ℕ → Bool) (x : ℕ) : x ∈ paKeep n anchor z ↔ x ∈ paRows n anchor fun w => !z w := by
  unfold paKeep paRows keptWaves
  simp only [List.mem_flatMap, List.mem_filter, List.mem_range, List.mem_range'_1, Finset.mem_filter, Finset.mem_range, Bool.not_eq_true']
  constructor
  · rintro ⟨w, ⟨h1, h2⟩, h3, h4⟩
    have h5 := (paWidth_le anchor w).2
    have h6 : x / 2 = w := by omega
    rw [h6]
    refine ⟨by omega, h2, ?_⟩
    intro h7 h8
    have h9 : paWidth anchor w = 1 := if_pos h8
    omega
  · rintro ⟨h1, h2, h3⟩
    refine ⟨x / 2, ⟨by omega, h2⟩, by omega, ?_⟩
    by_cases h4 : x % 2 = 1
    · have h9 : paWidth anchor (x / 2) = 2 := if_neg (h3 h4)
      omega
    · have h9 := (paWidth_le anchor (x / 2)).1
      omega

theorem length_paKeep_aux (anchor : ℕ) (l : List ℕ) (hl : l.Nodup) :
    (l.flatMap fun w => List.range' (2 * w) (paWidth anchor w)).length = 2 * l.length - if anchor ∈ l then 1 else 0 := by
  induction l with
  | nil => rfl
  | cons a l ih =>
    rw [List.nodup_cons] at hl
    rw [List.flatMap_cons, List.length_append, List.length_range', ih hl.2, List.length_cons]
    by_cases h : a = anchor
    · subst h
      rw [if_neg hl.1, if_pos List.mem_cons_self]
      have : paWidth a a = 1 := if_pos rfl
      omega
    · have h1 : paWidth anchor a = 2 := if_neg h
      rw [if_congr (show anchor ∈ a :: l ↔ anchor ∈ l by
        rw [List.mem_cons]
        exact ⟨fun h2 => h2.resolve_left (fun h3 => h h3.symm), Or.inr⟩) rfl rfl]
      by_cases h2 : anchor ∈ l
      · rw [if_pos h2]
        have := List.length_pos_of_mem h2
        omega
      · rw [if_neg h2]
        omega

theorem length_paKeep (n anchor : ℕ) (z : ℕ → Bool) : (paKeep n anchor z).length =
    2 * (n - ((List.range n).filter z).length) - if anchor < n ∧ z anchor = false then 1 else 0 := by
  unfold paKeep
  rw [length_paKeep_aux anchor (keptWaves n z) (List.Nodup.filter _ List.nodup_range), kept_length]
  congr 1
  apply if_congr _ rfl rfl
  unfold keptWaves
  simp only [List.mem_filter, List.mem_range, Bool.not_eq_true']

/-! ### writes -/

theorem paFillOne_mem (anchor : ℕ) (skip : Bool) (cov : Mat ℝ) (i j : ℕ × ℕ) (w : ℕ × ℕ × ℝ) : w ∈ paFillOne anchor skip cov i j ↔
    ∃ k < paWidth anchor i.1, ∃ l < paWidth anchor j.1,
      w = (paRow anchor skip i + k, paRow anchor skip j + l, cov (2 * i.1 + k) (2 * j.1 + l)) := by
  unfold paFillOne paWidth
  by_cases h1 : i.1 = anchor <;> by_cases h2 : j.1 = anchor <;>
    simp only [h1, h2, ne_eq, not_true_eq_false, not_false_eq_true, and_self, and_true, true_and, and_false, false_and, if_true, if_false,
      exists_lt_one, exists_lt_two, Nat.add_zero, List.mem_append, List.mem_cons, List.not_mem_nil, or_false] <;> tauto

theorem paBackOne_mem (anchor : ℕ) (skip : Bool) (red : Mat ℝ) (i j : ℕ × ℕ) (w : ℕ × ℕ × ℝ) : w ∈ paBackOne anchor skip red i j ↔
    ∃ k < paWidth anchor i.1, ∃ l < paWidth anchor j.1,
      w = (2 * i.1 + k, 2 * j.1 + l, red (paRow anchor skip i + k) (paRow anchor skip j + l)) := by
  unfold paBackOne paWidth
  by_cases h1 : i.1 = anchor <;> by_cases h2 : j.1 = anchor <;>
    simp only [h1, h2, ne_eq, not_true_eq_false, not_false_eq_true, and_self, and_true, true_and, and_false, false_and, if_true, if_false,
      exists_lt_one, exists_lt_two, Nat.add_zero, List.mem_append, List.mem_cons, List.not_mem_nil, or_false] <;> tauto

theorem paMaskOne_mem (uc : UseCov) (huc : uc ≠ .full) (anchor : ℕ) (skip : Bool) (i j : ℕ × ℕ) (w : ℕ × ℕ × ℝ) : w ∈ paMaskOne uc anchor skip i j ↔
    ∃ k < paWidth anchor i.1, ∃ l < paWidth anchor j.1, ¬ allowed uc (2 * i.1 + k) (2 * j.1 + l) ∧
      w = (paRow anchor skip i + k, paRow anchor skip j + l, 0) := by
  have a00 := allowed_even uc (2 * i.1) (2 * j.1) 0 0 (by omega) (by omega) (by omega) (by omega)
  have a01 := allowed_even uc (2 * i.1) (2 * j.1) 0 1 (by omega) (by omega) (by omega) (by omega)
  have a10 := allowed_even uc (2 * i.1) (2 * j.1) 1 0 (by omega) (by omega) (by omega) (by omega)
  have a11 := allowed_even uc (2 * i.1) (2 * j.1) 1 1 (by omega) (by omega) (by omega) (by omega)
  have e : 2 * i.1 = 2 * j.1 ↔ i.1 = j.1 := by omega
  rw [e] at a00 a01 a10 a11
  simp only [Nat.add_zero] at a00 a01 a10
  unfold paMaskOne paWidth
  dsimp only
  by_cases h3 : i.1 = j.1
  · by_cases h1 : i.1 = anchor
    · have h2 : j.1 = anchor := h3 ▸ h1
      cases uc
      all_goals
        simp only [if_pos h3, h1, h2, if_true, exists_lt_one, Nat.add_zero, ne_eq, not_true_eq_false, if_false, List.append_nil, List.not_mem_nil, ite_self]
        simp_all
    · have h2 : j.1 ≠ anchor := h3 ▸ h1
      cases uc
      all_goals
        simp only [if_pos h3, if_neg h1, if_neg h2, exists_lt_two, Nat.add_zero, a00, a01, a10, a11]
        simp [h1, h2, h3] at huc ⊢
  · by_cases h1 : i.1 = anchor <;> by_cases h2 : j.1 = anchor <;>
    simp only [if_neg h3, h1, h2, if_true, if_false, ne_eq, not_true_eq_false, not_false_eq_true, and_self, and_true, true_and, and_false, false_and,
      exists_lt_one, exists_lt_two, Nat.add_zero, List.mem_append, List.mem_cons, List.not_mem_nil, or_false] <;> simp_all <;> tauto

theorem paFillAll_eq (n : ℕ) (skip : Bool) (cov : Mat ℝ) (z : ℕ → Bool) :
    paFillAll cov (paWaves n z) = paFill n skip cov (paWaves n z) := by
  unfold paFillAll paFill
  apply List.flatMap_congr
  intro i hi
  apply List.flatMap_congr
  intro j hj
  have hi' := ((mem_paWaves n z i).1 hi).1
  have hj' := ((mem_paWaves n z j).1 hj).1
  unfold paFillAllOne paFillOne paRow
  rw [if_neg (by omega), if_neg (by omega)]
  simp only [ne_eq, show i.1 ≠ n by omega, show j.1 ≠ n by omega, not_false_eq_true, and_self, if_true, Nat.sub_zero]
  rfl

/-! ### rotation -/

theorem quot_deriv (A B C p q : ℝ) (h : 0 < p ^ 2 + q ^ 2) :
    HasDerivAt (fun t : ℝ => (A + B * t + C * t ^ 2) / √((p + t) ^ 2 + q ^ 2)) (B / √(p ^ 2 + q ^ 2) - A * p / √(p ^ 2 + q ^ 2) ^ 3) 0 := by
  have h1 : HasDerivAt (fun t : ℝ => A + B * t + C * t ^ 2) B 0 := by
    have h2 : HasDerivAt (fun t : ℝ => B * t) (B * 1) 0 := (hasDerivAt_id (0 : ℝ)).const_mul B
    have h3 : HasDerivAt (fun t : ℝ => C * t ^ 2) (C * (2 * (0 : ℝ) ^ (2 - 1))) 0 := by
      have := (hasDerivAt_pow 2 (0 : ℝ)).const_mul C
      simpa using this
    have h4 := HasDerivAt.add (HasDerivAt.const_add A h2) h3
    refine HasDerivAt.congr_deriv h4 ?_
    ring
  have h5 : HasDerivAt (fun t : ℝ => (p + t) ^ 2 + q ^ 2) (2 * p) 0 := by
    have h6 : HasDerivAt (fun t : ℝ => p + t) 1 0 := (hasDerivAt_id (0 : ℝ)).const_add p
    have h7 := HasDerivAt.add_const (q ^ 2) (HasDerivAt.pow h6 2)
    refine HasDerivAt.congr_deriv h7 ?_
    simp
  have h8 : (p + 0) ^ 2 + q ^ 2 = p ^ 2 + q ^ 2 := by rw [add_zero]
  have h9 := h5.sqrt (by rw [h8]; exact ne_of_gt h)
  have hs : 0 < √(p ^ 2 + q ^ 2) := Real.sqrt_pos.2 h
  have h10 := h1.div h9 (by rw [h8]; exact ne_of_gt hs)
  refine h10.congr_deriv ?_
  simp only [mul_zero, add_zero, ne_eq, OfNat.ofNat_ne_zero, not_false_eq_true, zero_pow]
  field_simp
  try ring

theorem shift_re (amp : ℕ → ℂ) (j l w : ℕ) (hl : l < 2) (t : ℝ) :
    (shift amp (2 * j + l) t w).re = (amp w).re + if w = j ∧ l = 0 then t else 0 := by
  unfold shift
  rw [show (2 * j + l) / 2 = j by omega, show (2 * j + l) % 2 = l by omega]
  by_cases h1 : w = j <;> by_cases h2 : l = 0 <;> simp [h1, h2]

theorem shift_im (amp : ℕ → ℂ) (j l w : ℕ) (hl : l < 2) (t : ℝ) :
    (shift amp (2 * j + l) t w).im = (amp w).im + if w = j ∧ l = 1 then t else 0 := by
  unfold shift
  rw [show (2 * j + l) / 2 = j by omega, show (2 * j + l) % 2 = l by omega]
  have h3 : l = 0 ∨ l = 1 := by omega
  by_cases h1 : w = j <;> rcases h3 with rfl | rfl <;> simp [h1]

theorem norm_eq (c : ℂ) : ‖c‖ = √(c.re ^ 2 + c.im ^ 2) := by
  rw [Complex.norm_def, Complex.normSq_apply]
  congr 1
  ring

theorem part_rotated (anchor : ℕ) (f : ℕ → ℂ) (i k : ℕ) (hk : k < 2) : part (rotated anchor f) (2 * i + k) =
    (if k = 0 then (f i).re * (f anchor).re + (f i).im * (f anchor).im else (f i).im * (f anchor).re - (f i).re * (f anchor).im) /
      √((f anchor).re ^ 2 + (f anchor).im ^ 2) := by
  unfold part rotated
  rw [show (2 * i + k) / 2 = i by omega, show (2 * i + k) % 2 = k by omega, ← norm_eq]
  by_cases h : k = 0
  · rw [if_pos h, if_pos h, Complex.div_ofReal_re, Complex.mul_re, Complex.conj_re, Complex.conj_im]
    congr 1
    ring
  · rw [if_neg h, if_neg h, Complex.div_ofReal_im, Complex.mul_im, Complex.conj_re, Complex.conj_im]
    congr 1
    ring

/-- the entries of the Jacobian. -/
noncomputable def jac (anchor : ℕ) (amp : ℕ → ℂ) (i k j l : ℕ) : ℝ :=
  let n := ‖amp anchor‖
  let xa1 := (amp anchor).re
  let xa2 := (amp anchor).im
  let xi1 := (amp i).re
  let xi2 := (amp i).im
  if j = anchor then
    if i = anchor then (if l = 0 then xa1 / n else xa2 / n)
    else if k = 0 then
      if l = 0 then xi1 / n - xa1 * (xi1 * xa1 + xi2 * xa2) / n ^ 3 else xi2 / n - xa2 * (xi2 * xa2 + xi1 * xa1) / n ^ 3
    else
      if l = 0 then xi2 / n - xa1 * (xi2 * xa1 - xi1 * xa2) / n ^ 3 else -xi1 / n - xa2 * (xi2 * xa1 - xi1 * xa2) / n ^ 3
  else if i = j then
    if k = 0 then (if l = 0 then xa1 / n else xa2 / n) else (if l = 0 then -xa2 / n else xa1 / n)
  else 0

/-- the entries of the Jacobian are the derivatives of the parts of the rotated amplitudes. -/
theorem jac_deriv (anchor : ℕ) (amp : ℕ → ℂ) (ha : amp anchor ≠ 0) (i k j l : ℕ) (hk : k < 2) (hl : l < 2) (hik : i = anchor → k = 0) :
    HasDerivAt (fun t => part (rotated anchor (shift amp (2 * j + l) t)) (2 * i + k)) (jac anchor amp i k j l) 0 := by
  have hpos : 0 < (amp anchor).re ^ 2 + (amp anchor).im ^ 2 := by
    have h1 : 0 < ‖amp anchor‖ := norm_pos_iff.2 ha
    rw [norm_eq, Real.sqrt_pos] at h1
    exact h1
  have hs : 0 < √((amp anchor).re ^ 2 + (amp anchor).im ^ 2) := Real.sqrt_pos.2 hpos
  have hss : √((amp anchor).re ^ 2 + (amp anchor).im ^ 2) ^ 2 = (amp anchor).re ^ 2 + (amp anchor).im ^ 2 := Real.sq_sqrt hpos.le
  have hfun : (fun t => part (rotated anchor (shift amp (2 * j + l) t)) (2 * i + k)) = fun t : ℝ =>
      (if k = 0 then ((amp i).re + if i = j ∧ l = 0 then t else 0) * ((amp anchor).re + if anchor = j ∧ l = 0 then t else 0) +
          ((amp i).im + if i = j ∧ l = 1 then t else 0) * ((amp anchor).im + if anchor = j ∧ l = 1 then t else 0)
        else ((amp i).im + if i = j ∧ l = 1 then t else 0) * ((amp anchor).re + if anchor = j ∧ l = 0 then t else 0) -
          ((amp i).re + if i = j ∧ l = 0 then t else 0) * ((amp anchor).im + if anchor = j ∧ l = 1 then t else 0)) /
        √(((amp anchor).re + if anchor = j ∧ l = 0 then t else 0) ^ 2 + ((amp anchor).im + if anchor = j ∧ l = 1 then t else 0) ^ 2) := by
    funext t
    rw [part_rotated _ _ _ _ hk, shift_re _ _ _ _ hl, shift_re _ _ _ _ hl, shift_im _ _ _ _ hl, shift_im _ _ _ _ hl]
  rw [hfun]
  have hl' : l = 0 ∨ l = 1 := by omega
  have hk' : k = 0 ∨ k = 1 := by omega
  unfold jac
  dsimp only
  rw [norm_eq]
  by_cases hj : j = anchor
  · by_cases hi : i = anchor
    · have hk0 := hik hi
      subst hk0
      subst hi
      subst hj
      rcases hl' with rfl | rfl
      · simp only [and_self, if_true, zero_ne_one, and_false, if_false, add_zero]
        have h := quot_deriv ((amp j).re ^ 2 + (amp j).im ^ 2) (2 * (amp j).re) 1 (amp j).re (amp j).im hpos
        refine (h.congr_deriv ?_).congr_of_eventuallyEq (Filter.Eventually.of_forall ?_)
        · rw [← hss]
          simp only [Real.sqrt_sq hs.le]
          field_simp
          ring
        · intro t
          dsimp only
          congr 1
          ring
      · simp only [one_ne_zero, and_self, if_true, and_false, if_false, add_zero]
        have h := quot_deriv ((amp j).im ^ 2 + (amp j).re ^ 2) (2 * (amp j).im) 1 (amp j).im (amp j).re (by linarith only [hpos])
        rw [add_comm ((amp j).im ^ 2)] at h
        refine (h.congr_deriv ?_).congr_of_eventuallyEq (Filter.Eventually.of_forall ?_)
        · rw [← hss]
          simp only [Real.sqrt_sq hs.le]
          field_simp
          ring
        · intro t
          dsimp only
          rw [add_comm ((amp j).re ^ 2)]
          congr 1
          ring
    · subst hj
      rcases hl' with rfl | rfl
      · rcases hk' with rfl | rfl
        · simp only [hi, false_and, and_self, if_true, zero_ne_one, one_ne_zero, and_false, if_false, add_zero]
          have h := quot_deriv ((amp i).re * (amp j).re + (amp i).im * (amp j).im) (amp i).re 0 (amp j).re (amp j).im hpos
          refine (h.congr_deriv ?_).congr_of_eventuallyEq (Filter.Eventually.of_forall ?_)
          · ring
          · intro t
            dsimp only
            congr 1
            ring
        · simp only [hi, false_and, and_self, if_true, zero_ne_one, one_ne_zero, and_false, if_false, add_zero]
          have h := quot_deriv ((amp i).im * (amp j).re - (amp i).re * (amp j).im) (amp i).im 0 (amp j).re (amp j).im hpos
          refine (h.congr_deriv ?_).congr_of_eventuallyEq (Filter.Eventually.of_forall ?_)
          · ring
          · intro t
            dsimp only
            congr 1
            ring
      · have hpos' : 0 < (amp j).im ^ 2 + (amp j).re ^ 2 := by linarith only [hpos]
        rcases hk' with rfl | rfl
        · simp only [hi, false_and, and_self, if_true, zero_ne_one, one_ne_zero, and_false, if_false, add_zero]
          have h := quot_deriv ((amp i).re * (amp j).re + (amp i).im * (amp j).im) (amp i).im 0 (amp j).im (amp j).re hpos'
          rw [add_comm ((amp j).im ^ 2)] at h
          refine (h.congr_deriv ?_).congr_of_eventuallyEq (Filter.Eventually.of_forall ?_)
          · ring
          · intro t
            dsimp only
            rw [add_comm ((amp j).re ^ 2)]
            congr 1
            ring
        · simp only [hi, false_and, and_self, if_true, zero_ne_one, one_ne_zero, and_false, if_false, add_zero]
          have h := quot_deriv ((amp i).im * (amp j).re - (amp i).re * (amp j).im) (-(amp i).re) 0 (amp j).im (amp j).re hpos'
          rw [add_comm ((amp j).im ^ 2)] at h
          refine (h.congr_deriv ?_).congr_of_eventuallyEq (Filter.Eventually.of_forall ?_)
          · ring
          · intro t
            dsimp only
            rw [add_comm ((amp j).re ^ 2)]
            congr 1
            ring
  · have hj' : ¬ anchor = j := fun h => hj h.symm
    by_cases hi : i = j
    · subst hi
      have hlin : ∀ (A B : ℝ), HasDerivAt (fun t : ℝ => (A + B * t) / √((amp anchor).re ^ 2 + (amp anchor).im ^ 2))
          (B / √((amp anchor).re ^ 2 + (amp anchor).im ^ 2)) 0 := by
        intro A B
        have h2 : HasDerivAt (fun t : ℝ => B * t) (B * 1) 0 := (hasDerivAt_id (0 : ℝ)).const_mul B
        refine HasDerivAt.congr_deriv (HasDerivAt.div_const (HasDerivAt.const_add A h2) _) ?_
        ring
      rcases hl' with rfl | rfl <;> rcases hk' with rfl | rfl
      · simp only [hj, hj', false_and, and_self, if_true, zero_ne_one, one_ne_zero, and_false, if_false, add_zero]
        refine (hlin ((amp i).re * (amp anchor).re + (amp i).im * (amp anchor).im) (amp anchor).re).congr_of_eventuallyEq
          (Filter.Eventually.of_forall ?_)
        intro t
        dsimp only
        congr 1
        ring
      · simp only [hj, hj', false_and, and_self, if_true, zero_ne_one, one_ne_zero, and_false, if_false, add_zero]
        refine (hlin ((amp i).im * (amp anchor).re - (amp i).re * (amp anchor).im) (-(amp anchor).im)).congr_of_eventuallyEq
          (Filter.Eventually.of_forall ?_)
        intro t
        dsimp only
        congr 1
        ring
      · simp only [hj, hj', false_and, and_self, if_true, zero_ne_one, one_ne_zero, and_false, if_false, add_zero]
        refine (hlin ((amp i).re * (amp anchor).re + (amp i).im * (amp anchor).im) (amp anchor).im).congr_of_eventuallyEq
          (Filter.Eventually.of_forall ?_)
        intro t
        dsimp only
        congr 1
        ring
      · simp only [hj, hj', false_and, and_self, if_true, zero_ne_one, one_ne_zero, and_false, if_false, add_zero]
        refine (hlin ((amp i).im * (amp anchor).re - (amp i).re * (amp anchor).im) (amp anchor).re).congr_of_eventuallyEq
          (Filter.Eventually.of_forall ?_)
        intro t
        dsimp only
        congr 1
        ring
    · simp only [hi, hj, hj', false_and, if_false, add_zero]
      exact hasDerivAt_const _ _

theorem slope_eq (anchor : ℕ) (amp : ℕ → ℂ) (ha : amp anchor ≠ 0) (i k j l : ℕ) (hk : k < 2) (hl : l < 2) (hik : i = anchor → k = 0) :
    slope anchor amp (2 * i + k) (2 * j + l) = jac anchor amp i k j l := (jac_deriv anchor amp ha i k j l hk hl hik).deriv

theorem paJacobianOne_mem (anchor : ℕ) (skip : Bool) (amp : ℕ → ℂ) (i j : ℕ × ℕ) (w : ℕ × ℕ × ℝ) : w ∈ paJacobianOne anchor skip amp i j ↔
    ∃ k < paWidth anchor i.1, ∃ l < 2, (j.1 = anchor ∨ i.1 = j.1) ∧
      w = (paRow anchor skip i + k, 2 * (j.1 - j.2) + l, jac anchor amp i.1 k j.1 l) := by
  unfold paJacobianOne paWidth jac
  dsimp only
  by_cases h2 : j.1 = anchor
  · by_cases h1 : i.1 = anchor
    · simp only [h1, h2, and_self, if_true, exists_lt_one, exists_lt_two, Nat.add_zero, List.mem_cons, List.not_mem_nil, or_false, one_ne_zero, if_false,
        true_or, true_and]
    · simp only [h1, h2, false_and, if_true, if_false, exists_lt_two, Nat.add_zero, List.mem_cons, List.not_mem_nil, or_false, one_ne_zero,
        true_or, true_and]
      tauto
  · by_cases h3 : i.1 = j.1
    · have h1 : i.1 ≠ anchor := h3 ▸ h2
      simp only [h1, h2, h3, and_false, if_true, if_false, exists_lt_two, Nat.add_zero, List.mem_cons, List.not_mem_nil, or_false, one_ne_zero,
        false_or, true_and]
      tauto
    · simp only [h2, h3, and_false, if_false, List.not_mem_nil, or_self, false_and, exists_false]

/-! ### production amplitudes -/

theorem paFill_get (n anchor : ℕ) (z : ℕ → Bool) (skip : Bool) (hskip : anchor < n → skip = z anchor) (cov : Mat ℝ) (r c x y : ℕ)
    (hr : (paKeep n anchor z)[r]? = some x) (hc : (paKeep n anchor z)[c]? = some y) :
    applyWrites zeros (paFill anchor skip cov (paWaves n z)) r c = cov x y := by
  apply applyWrites_eq
  · intro w hw h1 h2
    unfold paFill at hw
    simp only [List.mem_flatMap] at hw
    obtain ⟨i, hi, j, hj, hw⟩ := hw
    obtain ⟨k, hk, l, hl, rfl⟩ := (paFillOne_mem anchor skip cov i j w).1 hw
    dsimp only at h1 h2 ⊢
    have h3 := (paKeep_get n anchor z skip hskip r _).2 ⟨i, hi, k, hk, h1.symm, rfl⟩
    have h4 := (paKeep_get n anchor z skip hskip c _).2 ⟨j, hj, l, hl, h2.symm, rfl⟩
    rw [Option.some.inj (hr.symm.trans h3), Option.some.inj (hc.symm.trans h4)]
  · right
    obtain ⟨i, hi, k, hk, rfl, rfl⟩ := (paKeep_get n anchor z skip hskip r x).1 hr
    obtain ⟨j, hj, l, hl, rfl, rfl⟩ := (paKeep_get n anchor z skip hskip c y).1 hc
    refine ⟨(paRow anchor skip i + k, paRow anchor skip j + l, cov (2 * i.1 + k) (2 * j.1 + l)), ?_, rfl, rfl⟩
    unfold paFill
    simp only [List.mem_flatMap]
    exact ⟨i, hi, j, hj, (paFillOne_mem anchor skip cov i j _).2 ⟨k, hk, l, hl, rfl⟩⟩

theorem paMask_get (uc : UseCov) (n anchor : ℕ) (z : ℕ → Bool) (skip : Bool) (hskip : anchor < n → skip = z anchor) (M D : Mat ℝ) (r c x y : ℕ)
    (hr : (paKeep n anchor z)[r]? = some x) (hc : (paKeep n anchor z)[c]? = some y) (hM : M r c = D x y) :
    applyWrites M (paMask uc anchor skip (paWaves n z)) r c = usedCov uc D x y := by
  unfold paMask
  by_cases huc : uc = .full
  · rw [if_neg (by simp [huc])]
    subst huc
    exact hM.trans (if_pos trivial).symm
  · rw [if_pos huc]
    apply applyWrites_eq
    · intro w hw h1 h2
      simp only [List.mem_flatMap] at hw
      obtain ⟨i, hi, j, hj, hw⟩ := hw
      obtain ⟨k, hk, l, hl, ha, rfl⟩ := (paMaskOne_mem uc huc anchor skip i j w).1 hw
      dsimp only at h1 h2 ⊢
      have h3 := (paKeep_get n anchor z skip hskip r _).2 ⟨i, hi, k, hk, h1.symm, rfl⟩
      have h4 := (paKeep_get n anchor z skip hskip c _).2 ⟨j, hj, l, hl, h2.symm, rfl⟩
      rw [Option.some.inj (hr.symm.trans h3), Option.some.inj (hc.symm.trans h4)]
      unfold usedCov
      rw [if_neg ha]
    · by_cases ha : allowed uc x y
      · left
        unfold usedCov
        rw [if_pos ha]
        exact hM
      · right
        obtain ⟨i, hi, k, hk, rfl, rfl⟩ := (paKeep_get n anchor z skip hskip r x).1 hr
        obtain ⟨j, hj, l, hl, rfl, rfl⟩ := (paKeep_get n anchor z skip hskip c y).1 hc
        refine ⟨(paRow anchor skip i + k, paRow anchor skip j + l, 0), ?_, rfl, rfl⟩
        simp only [List.mem_flatMap]
        exact ⟨i, hi, j, hj, (paMaskOne_mem uc huc anchor skip i j _).2 ⟨k, hk, l, hl, ha, rfl⟩⟩

theorem paBack_get (n anchor : ℕ) (z : ℕ → Bool) (skip : Bool) (hskip : anchor < n → skip = z anchor) (red : Mat ℝ) (r c x y : ℕ)
    (hr : (paKeep n anchor z)[r]? = some x) (hc : (paKeep n anchor z)[c]? = some y) :
    applyWrites zeros (paBack anchor skip red (paWaves n z)) x y = red r c := by
  apply applyWrites_eq
  · intro w hw h1 h2
    unfold paBack at hw
    simp only [List.mem_flatMap] at hw
    obtain ⟨i, hi, j, hj, hw⟩ := hw
    obtain ⟨k, hk, l, hl, rfl⟩ := (paBackOne_mem anchor skip red i j w).1 hw
    dsimp only at h1 h2 ⊢
    have h3 := (paKeep_get n anchor z skip hskip _ x).2 ⟨i, hi, k, hk, rfl, h1.symm⟩
    have h4 := (paKeep_get n anchor z skip hskip _ y).2 ⟨j, hj, l, hl, rfl, h2.symm⟩
    rw [get_inj (nodup_paKeep n anchor z) h3 hr, get_inj (nodup_paKeep n anchor z) h4 hc]
  · right
    obtain ⟨i, hi, k, hk, rfl, rfl⟩ := (paKeep_get n anchor z skip hskip r x).1 hr
    obtain ⟨j, hj, l, hl, rfl, rfl⟩ := (paKeep_get n anchor z skip hskip c y).1 hc
    refine ⟨(2 * i.1 + k, 2 * j.1 + l, red (paRow anchor skip i + k) (paRow anchor skip j + l)), ?_, rfl, rfl⟩
    unfold paBack
    simp only [List.mem_flatMap]
    exact ⟨i, hi, j, hj, (paBackOne_mem anchor skip red i j _).2 ⟨k, hk, l, hl, rfl⟩⟩

theorem paBack_none (n anchor : ℕ) (z : ℕ → Bool) (skip : Bool) (hskip : anchor < n → skip = z anchor) (red : Mat ℝ) (x y : ℕ)
    (h : ¬ (x ∈ paKeep n anchor z ∧ y ∈ paKeep n anchor z)) :
    applyWrites zeros (paBack anchor skip red (paWaves n z)) x y = 0 := by
  rw [applyWrites_none]
  · rfl
  · intro w hw h1 h2
    unfold paBack at hw
    simp only [List.mem_flatMap] at hw
    obtain ⟨i, hi, j, hj, hw⟩ := hw
    obtain ⟨k, hk, l, hl, rfl⟩ := (paBackOne_mem anchor skip red i j w).1 hw
    exact h ⟨List.mem_of_getElem? ((paKeep_get n anchor z skip hskip _ x).2 ⟨i, hi, k, hk, rfl, h1.symm⟩),
      List.mem_of_getElem? ((paKeep_get n anchor z skip hskip _ y).2 ⟨j, hj, l, hl, rfl, h2.symm⟩)⟩

theorem paRow_all (n : ℕ) (z : ℕ → Bool) (j : ℕ × ℕ) (hj : j ∈ paWaves n z) : paRow n true j = 2 * (j.1 - j.2) := by
  unfold paRow
  rw [if_neg (fun h => absurd h.2 (by decide))]
  omega

theorem paJacobian_get (n anchor : ℕ) (z : ℕ → Bool) (skip : Bool) (hskip : anchor < n → skip = z anchor) (amp : ℕ → ℂ) (ha : amp anchor ≠ 0)
    (r c x u : ℕ) (hr : (paKeep n anchor z)[r]? = some x) (hc : (paKeep n n z)[c]? = some u) :
    applyWrites zeros (paJacobian anchor skip amp (paWaves n z)) r c = slope anchor amp x u := by
  have hall : n < n → true = z n := fun h => absurd h (Nat.lt_irrefl _)
  have hwid : ∀ i k, k < paWidth anchor i → i = anchor → k = 0 := by
    intro i k hk hi
    have : paWidth anchor i = 1 := if_pos hi
    omega
  apply applyWrites_eq
  · intro w hw h1 h2
    unfold paJacobian at hw
    simp only [List.mem_flatMap] at hw
    obtain ⟨i, hi, j, hj, hw⟩ := hw
    obtain ⟨k, hk, l, hl, _, rfl⟩ := (paJacobianOne_mem anchor skip amp i j w).1 hw
    dsimp only at h1 h2 ⊢
    have h3 := (paKeep_get n anchor z skip hskip r _).2 ⟨i, hi, k, hk, h1.symm, rfl⟩
    have hjn : paWidth n j.1 = 2 := if_neg (by have := ((mem_paWaves n z j).1 hj).1; omega)
    have h4 := (paKeep_get n n z true hall c _).2 ⟨j, hj, l, by rw [hjn]; exact hl, by rw [paRow_all n z j hj]; exact h2.symm, rfl⟩
    rw [Option.some.inj (hr.symm.trans h3), Option.some.inj (hc.symm.trans h4)]
    exact (slope_eq anchor amp ha i.1 k j.1 l (by have := (paWidth_le anchor i.1).2; omega) hl (hwid i.1 k hk)).symm
  · obtain ⟨i, hi, k, hk, rfl, rfl⟩ := (paKeep_get n anchor z skip hskip r x).1 hr
    obtain ⟨j, hj, l, hl, rfl, rfl⟩ := (paKeep_get n n z true hall c u).1 hc
    have hl2 : l < 2 := by have := (paWidth_le n j.1).2; omega
    rw [slope_eq anchor amp ha i.1 k j.1 l (by have := (paWidth_le anchor i.1).2; omega) hl2 (hwid i.1 k hk)]
    by_cases h : j.1 = anchor ∨ i.1 = j.1
    · right
      refine ⟨(paRow anchor skip i + k, 2 * (j.1 - j.2) + l, jac anchor amp i.1 k j.1 l), ?_, rfl, by rw [paRow_all n z j hj]⟩
      unfold paJacobian
      simp only [List.mem_flatMap]
      exact ⟨i, hi, j, hj, (paJacobianOne_mem anchor skip amp i j _).2 ⟨k, hk, l, hl2, h, rfl⟩⟩
    · left
      push Not at h
      unfold jac
      dsimp only
      rw [if_neg h.1, if_neg h.2]
      rfl

theorem sum_list_range (s : ℕ) (f : ℕ → ℝ) : ((List.range s).map f).sum = ∑ k ∈ Finset.range s, f k := by
  induction s with
  | zero => rfl
  | succ s ih => rw [List.range_succ, List.map_append, List.sum_append, ih, Finset.sum_range_succ]; simp

theorem mem_ampRows (n : ℕ) (z : ℕ → Bool) (x : ℕ) : x ∈ ampRows n (fun w => !z w) ↔ x ∈ paKeep n n z := by
  rw [mem_paKeep]
  unfold ampRows paRows
  simp only [Finset.mem_filter, Finset.mem_range]
  constructor
  · rintro ⟨h1, h2⟩
    exact ⟨h1, h2, fun _ => by omega⟩
  · rintro ⟨h1, h2, _⟩
    exact ⟨h1, h2⟩

theorem paStart_rotated (n anchor : ℕ) (z : ℕ → Bool) (skip : Bool) (hskip : anchor < n → skip = z anchor) (amp : ℕ → ℂ) (ha : amp anchor ≠ 0)
    (cov : Mat ℝ) (r c x y : ℕ) (hr : (paKeep n anchor z)[r]? = some x) (hc : (paKeep n anchor z)[c]? = some y) :
    paStart anchor skip false (n - ((List.range n).filter z).length) amp cov (paWaves n z) r c =
      rotatedCov anchor amp (ampRows n fun w => !z w) cov x y := by
  unfold paStart
  rw [if_neg (by decide)]
  have hlen : 2 * (n - ((List.range n).filter z).length) = (paKeep n n z).length := by
    rw [length_paKeep, if_neg (fun h => absurd h.1 (Nat.lt_irrefl _))]
    omega
  have hall : n < n → true = z n := fun h => absurd h (Nat.lt_irrefl _)
  rw [hlen, paFillAll_eq n true]
  unfold mul rotatedCov
  rw [sum_list_range]
  rw [Finset.sum_comm]
  rw [sum_set_list (paKeep n n z) (nodup_paKeep n n z) _ (mem_ampRows n z)]
  apply sum_range_list
  intro k v hk
  dsimp only
  rw [sum_list_range, paJacobian_get n anchor z skip hskip amp ha c k y v hc hk,
    sum_range_list (paKeep n n z) _ (fun u => slope anchor amp x u * cov u v) ?_,
    ← sum_set_list (paKeep n n z) (nodup_paKeep n n z) _ (mem_ampRows n z), Finset.sum_mul]
  intro l u hl
  rw [paJacobian_get n anchor z skip hskip amp ha r l x u hr hl, paFill_get n n z true hall cov l k u v hl hk]

theorem paZero_iff (amp : ℕ → ℂ) (cov : Mat ℝ) (w : ℕ) : paZero amp cov w = true ↔ PaNothing amp cov w := by
  unfold paZero PaNothing
  simp only [Bool.and_eq_true, decide_eq_true_eq]
  constructor
  · rintro ⟨⟨⟨⟨⟨h1, h2⟩, h3⟩, h4⟩, h5⟩, h6⟩
    refine ⟨Complex.ext h1 h2, ?_⟩
    intro k hk l hl
    have hk' : k = 0 ∨ k = 1 := by omega
    have hl' : l = 0 ∨ l = 1 := by omega
    rcases hk' with rfl | rfl <;> rcases hl' with rfl | rfl <;> assumption
  · rintro ⟨h1, h2⟩
    rw [h1]
    exact ⟨⟨⟨⟨⟨rfl, rfl⟩, h2 0 (by omega) 0 (by omega)⟩, h2 0 (by omega) 1 (by omega)⟩, h2 1 (by omega) 0 (by omega)⟩, h2 1 (by omega) 1 (by omega)⟩

theorem paReal_iff (amp : ℕ → ℂ) (cov : Mat ℝ) (w : ℕ) : paReal amp cov w = true ↔ PaReal amp cov w := by
  unfold paReal PaReal
  simp only [Bool.and_eq_true, decide_eq_true_eq]
  constructor
  · rintro ⟨⟨⟨h1, h2⟩, h3⟩, h4⟩
    refine ⟨h1, ?_⟩
    intro k hk l hl hkl
    have hk' : k = 0 ∨ k = 1 := by omega
    have hl' : l = 0 ∨ l = 1 := by omega
    rcases hk' with rfl | rfl <;> rcases hl' with rfl | rfl
    · omega
    all_goals assumption
  · rintro ⟨h1, h2⟩
    exact ⟨⟨⟨h1, h2 0 (by omega) 1 (by omega) (by omega)⟩, h2 1 (by omega) 0 (by omega) (by omega)⟩, h2 1 (by omega) 1 (by omega) (by omega)⟩

/-- the waves that are left out. -/
noncomputable def paOut (amp : ℕ → ℂ) (cov : Mat ℝ) (inRange : ℕ → Bool) : ℕ → Bool := fun w => paZero amp cov w || !inRange w

/-- the covariances of the production amplitudes that are fitted. -/
noncomputable def paCov (n anchor : ℕ) (inRange : ℕ → Bool) (amp : ℕ → ℂ) (cov : Mat ℝ) : Mat ℝ :=
  open Classical in if PaReal amp cov anchor then cov else rotatedCov anchor amp (ampRows n inRange) cov

theorem pa_kept (n anchor : ℕ) (inRange : ℕ → Bool) (amp : ℕ → ℂ) (cov : Mat ℝ) (h : ¬ ∃ w < n, PaNothing amp cov w ∧ inRange w = true) (x : ℕ) :
    x ∈ paKeep n anchor (paOut amp cov inRange) ↔ x ∈ paRows n anchor inRange := by
  rw [mem_paKeep]
  unfold paRows
  simp only [Finset.mem_filter, Finset.mem_range]
  apply and_congr_right
  intro hx
  have hk : (!(paOut amp cov inRange (x / 2))) = inRange (x / 2) := by
    unfold paOut
    cases h1 : inRange (x / 2)
    · simp
    · cases h2 : paZero amp cov (x / 2)
      · rfl
      · exact absurd ⟨x / 2, by omega, (paZero_iff amp cov _).1 h2, h1⟩ h
  rw [hk]

theorem pa_ampRows (n : ℕ) (inRange : ℕ → Bool) (amp : ℕ → ℂ) (cov : Mat ℝ) (h : ¬ ∃ w < n, PaNothing amp cov w ∧ inRange w = true) :
    ampRows n (fun w => !paOut amp cov inRange w) = ampRows n inRange := by
  ext x
  rw [mem_ampRows, pa_kept n n inRange amp cov h]
  unfold ampRows paRows
  simp only [Finset.mem_filter, Finset.mem_range]
  constructor
  · rintro ⟨h1, h2, _⟩
    exact ⟨h1, h2⟩
  · rintro ⟨h1, h2⟩
    exact ⟨h1, h2, fun _ => by omega⟩

/-- what is refused. -/
def PaRefused (n anchor : ℕ) (inRange : ℕ → Bool) (amp : ℕ → ℂ) (cov : Mat ℝ) : Prop :=
  (∃ w < n, PaNothing amp cov w ∧ inRange w = true) ∨ PaNothing amp cov anchor ∨
    ∃ w < n, w ≠ anchor ∧ ¬ PaNothing amp cov w ∧ PaReal amp cov w

theorem paPrepare_spec (inv : ℕ → Mat ℝ → Mat ℝ) (uc : UseCov) (n anchor : ℕ) (hanchor : anchor < n) (inRange : ℕ → Bool) (amp : ℕ → ℂ)
    (cov : Mat ℝ) : (PaRefused n anchor inRange amp cov → paPrepare inv uc n anchor inRange amp cov = none) ∧
      (¬ PaRefused n anchor inRange amp cov → ∃ amp' W red0, paPrepare inv uc n anchor inRange amp cov = some (amp', W) ∧
        (PaReal amp cov anchor → amp' = amp) ∧ (¬ PaReal amp cov anchor → amp' = fun w => amp w / (amp anchor / ‖amp anchor‖)) ∧
        (amp anchor ≠ 0 → ∀ r c x y : ℕ, (paKeep n anchor (paOut amp cov inRange))[r]? = some x → (paKeep n anchor (paOut amp cov inRange))[c]? = some y →
          red0 r c = usedCov uc (paCov n anchor inRange amp cov) x y) ∧
        (∀ r c x y : ℕ, (paKeep n anchor (paOut amp cov inRange))[r]? = some x → (paKeep n anchor (paOut amp cov inRange))[c]? = some y →
          W x y = inv (paKeep n anchor (paOut amp cov inRange)).length red0 r c) ∧
        ∀ x y, ¬ (x ∈ paKeep n anchor (paOut amp cov inRange) ∧ y ∈ paKeep n anchor (paOut amp cov inRange)) → W x y = 0) := by
  have hiff1 : (∃ w < n, paZero amp cov w = true ∧ inRange w = true) ↔ ∃ w < n, PaNothing amp cov w ∧ inRange w = true := by
    simp only [paZero_iff]
  have hiff2 : ((decide (anchor < n) && paZero amp cov anchor) = true ∨
      ((List.range n).any fun w => decide (w ≠ anchor) && !paZero amp cov w && paReal amp cov w) = true) ↔
      PaNothing amp cov anchor ∨ ∃ w < n, w ≠ anchor ∧ ¬ PaNothing amp cov w ∧ PaReal amp cov w := by
    simp only [hanchor, decide_true, Bool.true_and, paZero_iff, List.any_eq_true, List.mem_range, Bool.and_eq_true, decide_eq_true_eq,
      Bool.not_eq_true', ← paReal_iff, ← Bool.not_eq_true, and_assoc]
  unfold paPrepare
  rw [leftOut_spec]
  constructor
  · intro h
    rcases h with h | h
    · rw [if_pos (hiff1.2 h)]
    · by_cases h1 : ∃ w < n, paZero amp cov w = true ∧ inRange w = true
      · rw [if_pos h1]
      · rw [if_neg h1]
        dsimp only
        rw [if_pos (hiff2.2 h)]
  · intro h
    have h1 : ¬ ∃ w < n, PaNothing amp cov w ∧ inRange w = true := fun h' => h (Or.inl h')
    have h2 : ¬ _ := fun h' => h (Or.inr (hiff2.1 h'))
    rw [if_neg (fun h' => h1 (hiff1.1 h'))]
    dsimp only
    rw [if_neg h2]
    have hz : (fun w => paZero amp cov w || !inRange w) = paOut amp cov inRange := rfl
    rw [hz]
    have hskip : anchor < n → decide (anchor ∈ (List.range n).filter (paOut amp cov inRange)) = paOut amp cov inRange anchor := by
      intro _
      simp only [List.mem_filter, List.mem_range, hanchor, true_and]
      cases paOut amp cov inRange anchor <;> rfl
    have hsize : (2 * (n - ((List.range n).filter (paOut amp cov inRange)).length) -
        if decide (anchor ∈ (List.range n).filter (paOut amp cov inRange)) = true then 0 else 1) =
        (paKeep n anchor (paOut amp cov inRange)).length := by
      rw [length_paKeep, hskip hanchor]
      congr 1
      cases h5 : paOut amp cov inRange anchor
      · rw [if_neg (by decide), if_pos ⟨hanchor, rfl⟩]
      · rw [if_pos rfl, if_neg (fun h6 => absurd h6.2 (by decide))]
    have hws : visit ((List.range n).filter (paOut amp cov inRange)) n 0 0 = paWaves n (paOut amp cov inRange) := visit_zero n _
    rw [hsize, hws]
    generalize decide (anchor ∈ (List.range n).filter (paOut amp cov inRange)) = skip at hskip ⊢
    have hreal : (!decide (anchor < n) || paReal amp cov anchor) = true ↔ PaReal amp cov anchor := by
      rw [← paReal_iff]
      simp [hanchor]
    refine ⟨_, _, applyWrites (paStart anchor skip (!decide (anchor < n) || paReal amp cov anchor)
      (n - ((List.range n).filter (paOut amp cov inRange)).length) amp cov (paWaves n (paOut amp cov inRange)))
      (paMask uc anchor skip (paWaves n (paOut amp cov inRange))), rfl, ?_, ?_, ?_, ?_, ?_⟩
    · intro h3
      rw [if_pos (hreal.2 h3)]
    · intro h3
      rw [if_neg (fun h4 => h3 (hreal.1 h4))]
    · intro ha r c x y hr hc
      apply paMask_get uc n anchor _ skip hskip _ _ r c x y hr hc
      unfold paCov
      by_cases h3 : PaReal amp cov anchor
      · rw [hreal.2 h3, if_pos h3]
        unfold paStart
        rw [if_pos rfl]
        exact paFill_get n anchor _ skip hskip cov r c x y hr hc
      · rw [Bool.eq_false_iff.2 (fun h4 => h3 (hreal.1 h4)), if_neg h3, ← pa_ampRows n inRange amp cov h1]
        exact paStart_rotated n anchor _ skip hskip amp ha cov r c x y hr hc
    · intro r c x y hr hc
      exact paBack_get n anchor _ skip hskip _ r c x y hr hc
    · intro x y hxy
      exact paBack_none n anchor _ skip hskip _ x y hxy

/-- a mass bin is refused if and only if nothing is stored for a wave that is fitted in it or for the anchor wave, or if another wave is real. -/
theorem pa_refused (inv : ℕ → Mat ℝ → Mat ℝ) (uc : UseCov) (n anchor : ℕ) (hanchor : anchor < n) (inRange : ℕ → Bool) (amp : ℕ → ℂ)
    (cov : Mat ℝ) : paPrepare inv uc n anchor inRange amp cov = none ↔
      (∃ w < n, PaNothing amp cov w ∧ inRange w = true) ∨ PaNothing amp cov anchor ∨
        ∃ w < n, w ≠ anchor ∧ ¬ PaNothing amp cov w ∧ PaReal amp cov w := by
  obtain ⟨h1, h2⟩ := paPrepare_spec inv uc n anchor hanchor inRange amp cov
  constructor
  · intro h
    by_contra h3
    obtain ⟨amp', W, red0, h4, _⟩ := h2 h3
    rw [h] at h4
    cases h4
  · exact h1

/-- the amplitudes keep their values if the anchor wave is real, otherwise they are rotated such that it is. -/
theorem pa_amplitudes (inv : ℕ → Mat ℝ → Mat ℝ) (uc : UseCov) (n anchor : ℕ) (hanchor : anchor < n) (inRange : ℕ → Bool) (amp amp' : ℕ → ℂ)
    (cov W : Mat ℝ) (h : paPrepare inv uc n anchor inRange amp cov = some (amp', W)) (ha : amp anchor ≠ 0) :
    (PaReal amp cov anchor → amp' = amp) ∧ (¬ PaReal amp cov anchor → amp' = rotated anchor amp) := by
  obtain ⟨h1, h2⟩ := paPrepare_spec inv uc n anchor hanchor inRange amp cov
  by_cases h3 : PaRefused n anchor inRange amp cov
  · rw [h1 h3] at h
    cases h
  · obtain ⟨a, b, red0, h4, h5, h6, _⟩ := h2 h3
    rw [h] at h4
    obtain ⟨rfl, rfl⟩ := Prod.mk.inj (Option.some.inj h4)
    refine ⟨h5, fun h7 => ?_⟩
    rw [h6 h7]
    funext w
    unfold rotated
    have hn : (‖amp anchor‖ : ℂ) ≠ 0 := by
      rw [Ne, Complex.ofReal_eq_zero, norm_eq_zero]
      exact ha
    have hm := Complex.mul_conj' (amp anchor)
    have hc : (starRingEnd ℂ) (amp anchor) ≠ 0 := by
      rw [Ne, map_eq_zero]
      exact ha
    field_simp
    rw [← hm]
    ring

/-- outside of the parts that are fitted the matrix is zero. -/
theorem pa_outside (inv : ℕ → Mat ℝ → Mat ℝ) (uc : UseCov) (n anchor : ℕ) (hanchor : anchor < n) (inRange : ℕ → Bool) (amp amp' : ℕ → ℂ)
    (cov W : Mat ℝ) (h : paPrepare inv uc n anchor inRange amp cov = some (amp', W)) (x y : ℕ)
    (hxy : ¬ (x ∈ paRows n anchor inRange ∧ y ∈ paRows n anchor inRange)) : W x y = 0 := by
  obtain ⟨h1, h2⟩ := paPrepare_spec inv uc n anchor hanchor inRange amp cov
  by_cases h3 : PaRefused n anchor inRange amp cov
  · rw [h1 h3] at h
    cases h
  · obtain ⟨a, b, red0, h4, _, _, _, _, h5⟩ := h2 h3
    rw [h] at h4
    obtain ⟨rfl, rfl⟩ := Prod.mk.inj (Option.some.inj h4)
    apply h5
    rw [pa_kept n anchor inRange amp cov (fun h' => h3 (Or.inl h')), pa_kept n anchor inRange amp cov (fun h' => h3 (Or.inl h'))]
    exact hxy

theorem pa_inverse (inv : ℕ → Mat ℝ → Mat ℝ) (hinv : Inverter inv) (uc : UseCov) (n anchor : ℕ) (hanchor : anchor < n) (inRange : ℕ → Bool)
    (amp amp' : ℕ → ℂ) (cov W : Mat ℝ) (h : paPrepare inv uc n anchor inRange amp cov = some (amp', W)) (ha : amp anchor ≠ 0)
    (hV : ∃ V, InvertsOnSet (paRows n anchor inRange) V (usedCov uc (paCov n anchor inRange amp cov))) :
    InvertsOnSet (paRows n anchor inRange) W (usedCov uc (paCov n anchor inRange amp cov)) := by
  obtain ⟨h1, h2⟩ := paPrepare_spec inv uc n anchor hanchor inRange amp cov
  by_cases h3 : PaRefused n anchor inRange amp cov
  · rw [h1 h3] at h
    cases h
  · obtain ⟨a, b, red0, h4, _, _, h5, h6, _⟩ := h2 h3
    rw [h] at h4
    obtain ⟨rfl, rfl⟩ := Prod.mk.inj (Option.some.inj h4)
    exact inverse_of_rows inv hinv (paKeep n anchor (paOut amp cov inRange)) (nodup_paKeep _ _ _) _
      (fun x => (pa_kept n anchor inRange amp cov (fun h' => h3 (Or.inl h')) x).symm) _ red0 W (h5 ha) h6 hV

/-- with a real anchor wave: the inverse of the covariances that are used. -/
theorem pa_inverse_real (inv : ℕ → Mat ℝ → Mat ℝ) (hinv : Inverter inv) (uc : UseCov) (n anchor : ℕ) (hanchor : anchor < n) (inRange : ℕ → Bool)
    (amp amp' : ℕ → ℂ) (cov W : Mat ℝ) (h : paPrepare inv uc n anchor inRange amp cov = some (amp', W)) (ha : amp anchor ≠ 0)
    (hreal : PaReal amp cov anchor) (hV : ∃ V, InvertsOnSet (paRows n anchor inRange) V (usedCov uc cov)) :
    InvertsOnSet (paRows n anchor inRange) W (usedCov uc cov) := by
  have hC : paCov n anchor inRange amp cov = cov := if_pos hreal
  have := pa_inverse inv hinv uc n anchor hanchor inRange amp amp' cov W h ha
  rw [hC] at this
  exact this hV

/-- otherwise: the inverse of the covariances of the rotated amplitudes that are used. -/
theorem pa_inverse_rotated (inv : ℕ → Mat ℝ → Mat ℝ) (hinv : Inverter inv) (uc : UseCov) (n anchor : ℕ) (hanchor : anchor < n) (inRange : ℕ → Bool)
    (amp amp' : ℕ → ℂ) (cov W : Mat ℝ) (h : paPrepare inv uc n anchor inRange amp cov = some (amp', W)) (ha : amp anchor ≠ 0)
    (hreal : ¬ PaReal amp cov anchor)
    (hV : ∃ V, InvertsOnSet (paRows n anchor inRange) V (usedCov uc (rotatedCov anchor amp (ampRows n inRange) cov))) :
    InvertsOnSet (paRows n anchor inRange) W (usedCov uc (rotatedCov anchor amp (ampRows n inRange) cov)) := by
  have hC : paCov n anchor inRange amp cov = rotatedCov anchor amp (ampRows n inRange) cov := if_neg hreal
  have := pa_inverse inv hinv uc n anchor hanchor inRange amp amp' cov W h ha
  rw [hC] at this
  exact this hV

/-- the slopes used for the rotated covariances are derivatives. -/
theorem slope_deriv (anchor : ℕ) (amp : ℕ → ℂ) (ha : amp anchor ≠ 0) (x y : ℕ) (hx : x / 2 = anchor → x % 2 = 0) :
    HasDerivAt (fun t => part (rotated anchor (shift amp y t)) x) (slope anchor amp x y) 0 := by
  have h := jac_deriv anchor amp ha (x / 2) (x % 2) (y / 2) (y % 2) (by omega) (by omega) hx
  rw [show 2 * (x / 2) + x % 2 = x by omega, show 2 * (y / 2) + y % 2 = y by omega] at h
  have h2 : slope anchor amp x y = jac anchor amp (x / 2) (x % 2) (y / 2) (y % 2) := h.deriv
  rw [h2]
  exact h

/-- the rotated anchor wave is real and positive, and the spin-density matrix does not change. -/
theorem rotated_spec (anchor : ℕ) (amp : ℕ → ℂ) (ha : amp anchor ≠ 0) :
    rotated anchor amp anchor = (‖amp anchor‖ : ℂ) ∧
      ∀ i j, rotated anchor amp i * (starRingEnd ℂ) (rotated anchor amp j) = amp i * (starRingEnd ℂ) (amp j) := by
  have hn : (‖amp anchor‖ : ℂ) ≠ 0 := by
    rw [Ne, Complex.ofReal_eq_zero, norm_eq_zero]
    exact ha
  have hm := Complex.mul_conj' (amp anchor)
  unfold rotated
  constructor
  · rw [hm]
    field_simp
  · intro i j
    rw [map_div₀, map_mul, Complex.conj_conj, Complex.conj_ofReal]
    have : amp i * (starRingEnd ℂ) (amp anchor) / (‖amp anchor‖ : ℂ) * ((starRingEnd ℂ) (amp j) * amp anchor / (‖amp anchor‖ : ℂ)) =
        amp i * (starRingEnd ℂ) (amp j) * (amp anchor * (starRingEnd ℂ) (amp anchor)) / (‖amp anchor‖ : ℂ) ^ 2 := by
      field_simp
    rw [this, hm]
    field_simp

/-! ### mass bins -/

theorem massRange_spec (maxMass : ℕ) (limits : ℕ → ℕ × ℕ) (n m : ℕ) (hm : m < maxMass) :
    ((massRange maxMass n limits).1 ≤ m ∧ m ≤ (massRange maxMass n limits).2) ↔ (∃ w < n, (limits w).1 ≤ m) ∧ ∃ w < n, m ≤ (limits w).2 := by
  have h1 : (massRange maxMass n limits).1 ≤ m ↔ ∃ w < n, (limits w).1 ≤ m := by
    induction n with
    | zero =>
      constructor
      · intro h
        exact absurd h (by show ¬ maxMass ≤ m; omega)
      · rintro ⟨w, hw, _⟩
        omega
    | succ n ih =>
      have hr : (massRange maxMass (n + 1) limits).1 = min (massRange maxMass n limits).1 (limits n).1 := by
        unfold massRange
        rw [List.range_succ, List.foldl_append]
        rfl
      rw [hr, min_le_iff, ih]
      constructor
      · rintro (⟨w, hw, h⟩ | h)
        · exact ⟨w, by omega, h⟩
        · exact ⟨n, by omega, h⟩
      · rintro ⟨w, hw, h⟩
        rcases Nat.lt_succ_iff_lt_or_eq.1 hw with hw | rfl
        · exact Or.inl ⟨w, hw, h⟩
        · exact Or.inr h
  have h2 : 0 < n → (m ≤ (massRange maxMass n limits).2 ↔ ∃ w < n, m ≤ (limits w).2) := by
    clear h1
    induction n with
    | zero => intro h; omega
    | succ n ih =>
      intro _
      have hr : (massRange maxMass (n + 1) limits).2 = max (massRange maxMass n limits).2 (limits n).2 := by
        unfold massRange
        rw [List.range_succ, List.foldl_append]
        rfl
      rw [hr, le_max_iff]
      constructor
      · rintro (h | h)
        · by_cases h0 : 0 < n
          · obtain ⟨w, hw, h'⟩ := (ih h0).1 h
            exact ⟨w, by omega, h'⟩
          · have : n = 0 := by omega
            subst this
            have h' : m ≤ 0 := h
            exact ⟨0, by omega, by omega⟩
        · exact ⟨n, by omega, h⟩
      · rintro ⟨w, hw, h⟩
        rcases Nat.lt_succ_iff_lt_or_eq.1 hw with hw | rfl
        · exact Or.inl ((ih (by omega)).2 ⟨w, hw, h⟩)
        · exact Or.inr h
  rw [h1]
  apply and_congr_right
  rintro ⟨w, hw, _⟩
  exact h2 (by omega)

theorem mapM_some {A B : Type} (f : A → Option B) : ∀ (l : List A) (r : List B), l.mapM f = some r ↔ List.Forall₂ (fun a b => f a = some b) l r := by
  intro l
  induction l with
  | nil =>
    intro r
    rw [List.mapM_nil]
    cases r <;> simp
  | cons a l ih =>
    intro r
    rw [List.mapM_cons]
    cases hf : f a with
    | none =>
      constructor
      · intro h
        cases h
      · intro h
        cases h with
        | cons h1 _ => rw [hf] at h1; cases h1
    | some b =>
      cases hl : l.mapM f with
      | none =>
        constructor
        · intro h
          simp [hl] at h
        · intro h
          cases h with
          | cons h1 h2 => rw [(ih _).2 h2] at hl; cases hl
      | some bs =>
        constructor
        · intro h
          simp [hl] at h
          subst h
          exact List.Forall₂.cons hf ((ih bs).1 hl)
        · intro h
          cases h with
          | cons h1 h2 =>
            rw [hf] at h1
            have := (ih _).2 h2
            rw [hl] at this
            simp [hl, Option.some.inj h1, Option.some.inj this]

/-- the result of a bin: a matrix of every mass bin between the first and the last one that is used. -/
theorem prepareBin_some {A : Type} (maxMass n : ℕ) (limits : ℕ → ℕ × ℕ) (prepare : ℕ → (ℕ → Bool) → Option A) (r : List (Option A)) :
    prepareBin maxMass n limits prepare = some r ↔ r.length = maxMass ∧ ∀ m < maxMass,
      (((∃ w < n, (limits w).1 ≤ m) ∧ ∃ w < n, m ≤ (limits w).2) →
        ∃ W, prepare m (fun w => decide ((limits w).1 ≤ m ∧ m ≤ (limits w).2)) = some W ∧ r[m]? = some (some W)) ∧
      (¬ ((∃ w < n, (limits w).1 ≤ m) ∧ ∃ w < n, m ≤ (limits w).2) → r[m]? = some none) := by
  unfold prepareBin
  dsimp only
  rw [mapM_some, List.forall₂_iff_get]
  have hdec : ∀ m, (fun w => decide ((limits w).1 ≤ m) && decide (m ≤ (limits w).2)) = fun w => decide ((limits w).1 ≤ m ∧ m ≤ (limits w).2) := by
    intro m
    funext w
    rw [Bool.decide_and]
  constructor
  · rintro ⟨h1, h2⟩
    rw [List.length_range] at h1
    refine ⟨h1.symm, ?_⟩
    intro m hm
    have h3 := h2 m (by rw [List.length_range]; exact hm) (h1 ▸ hm)
    rw [List.get_eq_getElem, List.getElem_range, List.get_eq_getElem] at h3
    dsimp only at h3
    have h4 := massRange_spec maxMass limits n m hm
    rw [List.getElem?_eq_getElem (h1 ▸ hm)]
    constructor
    · intro h5
      rw [if_pos (h4.2 h5), hdec, Option.map_eq_some_iff] at h3
      obtain ⟨W, h6, h7⟩ := h3
      exact ⟨W, h6, by rw [h7]⟩
    · intro h5
      rw [if_neg (fun h => h5 (h4.1 h))] at h3
      exact h3.symm
  · rintro ⟨h1, h2⟩
    refine ⟨by rw [List.length_range]; exact h1.symm, ?_⟩
    intro m hm hm'
    rw [List.length_range] at hm
    rw [List.get_eq_getElem, List.getElem_range, List.get_eq_getElem]
    dsimp only
    have h4 := massRange_spec maxMass limits n m hm
    obtain ⟨h5, h6⟩ := h2 m hm
    rw [List.getElem?_eq_getElem hm'] at h5 h6
    by_cases h7 : (∃ w < n, (limits w).1 ≤ m) ∧ ∃ w < n, m ≤ (limits w).2
    · obtain ⟨W, h8, h9⟩ := h5 h7
      rw [if_pos (h4.2 h7), hdec, h8]
      exact h9.symm
    · rw [if_neg (fun h => h7 (h4.1 h))]
      exact (h6 h7).symm

end Rpwa.FitCov

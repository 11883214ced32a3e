import Verif.Spec.FitResult
import Verif.Lemmas.Outcome
import Mathlib.Analysis.Calculus.Deriv.Add
import Mathlib.Analysis.Calculus.Deriv.Mul
import Mathlib.Analysis.Calculus.Deriv.Star
import Mathlib.Algebra.BigOperators.Ring.Finset
import Mathlib.Tactic.Ring
import Mathlib.Tactic.LinearCombination
import Mathlib.Tactic.FieldSimp
import Mathlib.Tactic.IntervalCases
import Mathlib.Data.List.GetD
import Mathlib.Analysis.Calculus.Deriv.Comp
import Mathlib.Analysis.Calculus.Deriv.Linear
/-! Lemmas for fit results: propagation of errors through index lists. -/
namespace Rpwa.Fit

open Finset

/-- a sum over `2 n` columns is a double sum. -/
theorem sum_range_two_mul (n : ℕ) (f : ℕ → ℝ) : ∑ c ∈ range (2 * n), f c = ∑ i ∈ range n, ∑ b ∈ range 2, f (2 * i + b) := by
  induction n with
  | zero => simp
  | succ n ih =>
    rw [show 2 * (n + 1) = 2 * n + 1 + 1 by ring, sum_range_succ, sum_range_succ, ih, sum_range_succ _ n]
    simp [sum_range_succ]; ring

theorem parCovIndices_getD (r : FitResult) (idx : List ℕ) (i b : ℕ) (hi : i < idx.length) (hb : b < 2) :
    (r.parCovIndices idx).getD (2 * i + b) (-1) = if b = 0 then (r.covIdx (idx.getD i 0)).1 else (r.covIdx (idx.getD i 0)).2 := by
  induction idx generalizing i with
  | nil => simp at hi
  | cons k idx ih =>
    unfold FitResult.parCovIndices at ih ⊢
    rw [List.flatMap_cons]
    cases i with
    | zero =>
      interval_cases b <;> simp
    | succ i =>
      have hi' : i < idx.length := by simpa using hi
      rw [show 2 * (i + 1) + b = 2 * i + b + 2 by ring]
      simpa using ih i hi'

theorem prodAmpCov_entry (r : FitResult) (hv : r.covMatrixValid = true) (idx : List ℕ) (i b j b' : ℕ) (hi : i < idx.length) (hb : b < 2)
    (hj : j < idx.length) (hb' : b' < 2) :
    (r.prodAmpCov idx).entry (2 * i + b) (2 * j + b') = compCov r (idx.getD i 0) b (idx.getD j 0) b' := by
  simp only [FitResult.prodAmpCov, hv, compCov]
  rw [parCovIndices_getD r idx i b hi hb, parCovIndices_getD r idx j b' hj hb']
  rfl

/-- total derivative with respect to component `b` of amplitude `p` when amplitude `p` occurs several times in the list. -/
noncomputable def collect (idx : List ℕ) (J : ℕ → ℝ) (p b : ℕ) : ℝ :=
  ∑ i ∈ range idx.length, if idx.getD i 0 = p then J (2 * i + b) else 0

theorem sum_collect (idx : List ℕ) (n : ℕ) (hidx : ∀ k ∈ idx, k < n) (J : ℕ → ℝ) (F : ℕ → ℕ → ℝ) :
    ∑ p ∈ range n, ∑ b ∈ range 2, collect idx J p b * F p b = ∑ i ∈ range idx.length, ∑ b ∈ range 2, J (2 * i + b) * F (idx.getD i 0) b := by
  have hmem : ∀ i ∈ range idx.length, idx.getD i 0 ∈ range n := by
    intro i hi
    have hi := mem_range.1 hi
    rw [List.getD_eq_getElem _ _ hi]
    exact mem_range.2 (hidx _ (List.getElem_mem hi))
  simp only [collect, sum_mul]
  calc _ = ∑ p ∈ range n, ∑ i ∈ range idx.length, ∑ b ∈ range 2, (if idx.getD i 0 = p then J (2 * i + b) else 0) * F p b := by
        refine sum_congr rfl fun p _ => sum_comm
    _ = ∑ i ∈ range idx.length, ∑ p ∈ range n, ∑ b ∈ range 2, (if idx.getD i 0 = p then J (2 * i + b) else 0) * F p b := sum_comm
    _ = _ := by
      refine sum_congr rfl fun i hi => ?_
      rw [sum_comm]
      refine sum_congr rfl fun b _ => ?_
      simp only [ite_mul, zero_mul]
      rw [sum_ite_eq, if_pos (hmem i hi)]

/-- the sandwich `J C K^T` over a list of amplitudes is the propagation of the collected derivatives. -/
theorem sandwich_eq (r : FitResult) (hv : r.covMatrixValid = true) (idx : List ℕ) (hidx : ∀ k ∈ idx, k < r.nmbProdAmps) (J K : ℕ → ℝ) :
    FitResult.sandwich (r.prodAmpCov idx).nCols (r.prodAmpCov idx).entry J K = propagate r (collect idx J) (collect idx K) := by
  have hn : (r.prodAmpCov idx).nCols = 2 * idx.length := rfl
  unfold FitResult.sandwich propagate
  rw [hn, sum_range_two_mul]
  have e1 : ∀ i ∈ range idx.length, ∀ b ∈ range 2, (∑ c ∈ range (2 * idx.length), (r.prodAmpCov idx).entry (2 * i + b) c * K c) =
      ∑ q ∈ range r.nmbProdAmps, ∑ b' ∈ range 2, collect idx K q b' * compCov r (idx.getD i 0) b q b' := by
    intro i hi b hb
    rw [sum_range_two_mul, sum_collect idx r.nmbProdAmps hidx]
    refine sum_congr rfl fun j hj => sum_congr rfl fun b' hb' => ?_
    rw [prodAmpCov_entry r hv idx i b j b' (mem_range.1 hi) (mem_range.1 hb) (mem_range.1 hj) (mem_range.1 hb')]
    ring
  rw [show (∑ i ∈ range idx.length, ∑ b ∈ range 2, J (2 * i + b) * ∑ c ∈ range (2 * idx.length), (r.prodAmpCov idx).entry (2 * i + b) c * K c) =
    ∑ i ∈ range idx.length, ∑ b ∈ range 2, J (2 * i + b) * (fun p b => ∑ q ∈ range r.nmbProdAmps, ∑ b' ∈ range 2,
      collect idx K q b' * compCov r p b q b') (idx.getD i 0) b from
      sum_congr rfl fun i hi => sum_congr rfl fun b hb => by rw [e1 i hi b hb]]
  refine (sum_collect idx r.nmbProdAmps hidx J (fun p b => ∑ q ∈ range r.nmbProdAmps, ∑ b' ∈ range 2,
      collect idx K q b' * compCov r p b q b')).symm.trans ?_
  refine sum_congr rfl fun p _ => sum_congr rfl fun b _ => ?_
  simp only [mul_sum]
  refine sum_congr rfl fun q _ => sum_congr rfl fun b' _ => ?_
  ring

theorem propagate_smul (r : FitResult) (D D' : ℕ → ℕ → ℝ) (x y : ℝ) :
    propagate r (fun p b => x * D p b) (fun p b => y * D' p b) = x * y * propagate r D D' := by
  unfold propagate
  simp only [mul_sum]
  refine sum_congr rfl fun p _ => sum_congr rfl fun b _ => sum_congr rfl fun q _ => sum_congr rfl fun b' _ => ?_
  ring

theorem propagate_combine (r : FitResult) (D E : ℕ → ℕ → ℝ) (x y : ℝ) :
    propagate r (fun p b => x * D p b + y * E p b) (fun p b => x * D p b + y * E p b) =
      x * (propagate r D D * x + propagate r D E * y) + y * (propagate r E D * x + propagate r E E * y) := by
  unfold propagate
  simp only [mul_sum, sum_mul, ← sum_add_distrib]
  refine sum_congr rfl fun p _ => sum_congr rfl fun b _ => sum_congr rfl fun q _ => sum_congr rfl fun b' _ => ?_
  ring

theorem propagate_congr (r : FitResult) {D D' E E' : ℕ → ℕ → ℝ} (h : ∀ p < r.nmbProdAmps, ∀ b < 2, D p b = E p b)
    (h' : ∀ p < r.nmbProdAmps, ∀ b < 2, D' p b = E' p b) : propagate r D D' = propagate r E E' := by
  unfold propagate
  refine sum_congr rfl fun p hp => sum_congr rfl fun b hb => sum_congr rfl fun q hq => sum_congr rfl fun b' hb' => ?_
  rw [h p (mem_range.1 hp) b (mem_range.1 hb), h' q (mem_range.1 hq) b' (mem_range.1 hb')]

/-! ### the spin-density element as a function of the amplitudes -/

/-- `N Σ V_a conj V_b` over index pairs. -/
noncomputable def rhoPairs (N : ℕ) (pairs : List (ℕ × ℕ)) (V : ℕ → ℂ) : ℂ :=
  (N : ℂ) * ∑ i ∈ range pairs.length, V (pairs.getD i (0, 0)).1 * (starRingEnd ℂ) (V (pairs.getD i (0, 0)).2)

theorem foldl_pairs (pairs : List (ℕ × ℕ)) (V : ℕ → ℂ) (s : ℂ) :
    pairs.foldl (fun s p => s + V p.1 * (starRingEnd ℂ) (V p.2)) s =
      s + ∑ i ∈ range pairs.length, V (pairs.getD i (0, 0)).1 * (starRingEnd ℂ) (V (pairs.getD i (0, 0)).2) := by
  induction pairs generalizing s with
  | nil => simp
  | cons p ps ih =>
    rw [List.foldl_cons, ih, List.length_cons, sum_range_succ']
    simp only [List.getD_cons_succ, List.getD_cons_zero]
    ring

/-- derivative of an amplitude along a unit vector. -/
theorem hasDerivAt_update (V : ℕ → ℂ) (p b k : ℕ) :
    HasDerivAt (fun t : ℝ => Function.update V p (V p + t * unit b) k) (if k = p then unit b else 0) 0 := by
  by_cases h : k = p
  · subst h
    rw [if_pos rfl]
    simp only [Function.update_self]
    have h1 : HasDerivAt (fun t : ℝ => (t : ℂ)) 1 0 := Complex.ofRealCLM.hasDerivAt
    simpa using (h1.mul_const (unit b)).const_add (V k)
  · rw [if_neg h]
    simp only [Function.update_of_ne h]
    exact hasDerivAt_const _ _

theorem hasDerivAt_conj {f : ℝ → ℂ} {f' : ℂ} {x : ℝ} (h : HasDerivAt f f' x) :
    HasDerivAt (fun t => (starRingEnd ℂ) (f t)) ((starRingEnd ℂ) f') x := h.star

/-- complex derivative of the spin-density element along component `b` of amplitude `p`. -/
noncomputable def rhoDeriv (N : ℕ) (pairs : List (ℕ × ℕ)) (V : ℕ → ℂ) (p b : ℕ) : ℂ :=
  (N : ℂ) * ∑ i ∈ range pairs.length, ((if (pairs.getD i (0, 0)).1 = p then unit b else 0) * (starRingEnd ℂ) (V (pairs.getD i (0, 0)).2) +
    V (pairs.getD i (0, 0)).1 * (starRingEnd ℂ) (if (pairs.getD i (0, 0)).2 = p then unit b else 0))

theorem rho_hasDerivAt (N : ℕ) (pairs : List (ℕ × ℕ)) (V : ℕ → ℂ) (p b : ℕ) :
    HasDerivAt (fun t : ℝ => rhoPairs N pairs (Function.update V p (V p + t * unit b))) (rhoDeriv N pairs V p b) 0 := by
  unfold rhoPairs rhoDeriv
  refine HasDerivAt.const_mul (N : ℂ) ?_
  refine HasDerivAt.fun_sum fun i _ => ?_
  have h1 := hasDerivAt_update V p b (pairs.getD i (0, 0)).1
  have h2 := hasDerivAt_conj (hasDerivAt_update V p b (pairs.getD i (0, 0)).2)
  have := h1.mul h2
  have e : ∀ k, Function.update V p (V p + ((0 : ℝ) : ℂ) * unit b) k = V k := by
    intro k
    by_cases hk : k = p
    · subst hk; simp
    · simp [Function.update_of_ne hk]
  rw [e, e] at this
  exact this

/-- real and imaginary part. -/
def compPart (k : ℕ) (z : ℂ) : ℝ := if k = 0 then z.re else z.im

theorem hasDerivAt_compPart {f : ℝ → ℂ} {f' : ℂ} {x : ℝ} (k : ℕ) (h : HasDerivAt f f' x) :
    HasDerivAt (fun t => compPart k (f t)) (compPart k f') x := by
  unfold compPart
  split
  · exact (Complex.reCLM.hasFDerivAt.comp_hasDerivAt x h)
  · exact (Complex.imCLM.hasFDerivAt.comp_hasDerivAt x h)

theorem compPart_sum {ι : Type} (k : ℕ) (s : Finset ι) (f : ι → ℂ) : compPart k (∑ i ∈ s, f i) = ∑ i ∈ s, compPart k (f i) := by
  unfold compPart; split
  · exact Complex.re_sum _ _
  · exact Complex.im_sum _ _

theorem compPart_natCast_mul (k N : ℕ) (z : ℂ) : compPart k ((N : ℂ) * z) = N * compPart k z := by
  unfold compPart; split <;> simp

theorem compPart_add (k : ℕ) (z w : ℂ) : compPart k (z + w) = compPart k z + compPart k w := by
  unfold compPart; split <;> simp

/-- the code's Jacobian, collected, is the derivative divided by the event number. -/
theorem collect_jacobian (r : FitResult) (pairs : List (ℕ × ℕ)) (k p b : ℕ) (hk : k < 2) (hb : b < 2) :
    (r.normNmbEvents : ℝ) * collect (pairs.map Prod.fst ++ pairs.map Prod.snd) (r.spinDensJacobian pairs k) p b =
      compPart k (rhoDeriv r.normNmbEvents pairs r.prodAmps p b) := by
  unfold rhoDeriv collect
  rw [compPart_natCast_mul, compPart_sum]
  congr 1
  set m := pairs.length with hm
  rw [show (pairs.map Prod.fst ++ pairs.map Prod.snd).length = m + m by simp [hm], sum_range_add]
  rw [← sum_add_distrib]
  refine sum_congr rfl fun i hi => ?_
  have hi := mem_range.1 hi
  have g1 : (pairs.map Prod.fst ++ pairs.map Prod.snd).getD i 0 = (pairs.getD i (0, 0)).1 := by
    rw [List.getD_append _ _ _ _ (by simpa using hi), List.getD_eq_getElem _ _ (by simpa using hi), List.getD_eq_getElem _ _ hi]
    simp
  have g2 : (pairs.map Prod.fst ++ pairs.map Prod.snd).getD (m + i) 0 = (pairs.getD i (0, 0)).2 := by
    rw [List.getD_append_right _ _ _ _ (by simp [hm])]
    simp only [List.length_map, ← hm, Nat.add_sub_cancel_left]
    rw [List.getD_eq_getElem _ _ (by simpa using hi), List.getD_eq_getElem _ _ hi]
    simp
  rw [g1, g2, compPart_add]
  have j1 : r.spinDensJacobian pairs k (2 * i + b) = FitResult.matrixRepr ((starRingEnd ℂ) (r.prodAmps (pairs.getD i (0, 0)).2)) k b := by
    unfold FitResult.spinDensJacobian
    simp only [← hm]
    rw [if_pos (by omega), show (2 * i + b) / 2 = i by omega, show (2 * i + b) % 2 = b by omega]
  have j2 : r.spinDensJacobian pairs k (2 * (m + i) + b) =
      FitResult.matrixRepr (r.prodAmps (pairs.getD i (0, 0)).1) k b * (if b = 0 then 1 else -1) := by
    unfold FitResult.spinDensJacobian
    simp only [← hm]
    rw [if_neg (by omega), show (2 * (m + i) + b - 2 * m) / 2 = i by omega, show (2 * (m + i) + b - 2 * m) % 2 = b by omega]
  rw [j1, j2]
  congr 1
  · by_cases h : (pairs.getD i (0, 0)).1 = p
    · rw [if_pos h, if_pos h]
      interval_cases k <;> interval_cases b <;> simp [FitResult.matrixRepr, compPart, unit]
    · rw [if_neg h, if_neg h]; simp [compPart]
  · by_cases h : (pairs.getD i (0, 0)).2 = p
    · rw [if_pos h, if_pos h]
      interval_cases k <;> interval_cases b <;> simp [FitResult.matrixRepr, compPart, unit]
    · rw [if_neg h, if_neg h]; simp [compPart]

end Rpwa.Fit

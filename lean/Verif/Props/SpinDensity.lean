import Verif.Lemmas.FitLabelled
import Mathlib.Algebra.Order.BigOperators.Group.Finset
/-!
# C30: spin-density matrix and intensities -/
namespace Rpwa.Fit

open Finset

variable {rx : Name → Name → Bool} {r : FitResult} {labels : List Label}

/-- wave index `i` of the fit result is wave `A`. -/
def IsWave (r : FitResult) (labels : List Label) (i : ℕ) (A : Wave) : Prop :=
  r.waveNames[i]? = some A.text ∧ ∃ l ∈ labels, l.wave = A

/-- `ρ_AB = N Σ_k V_Ak V_Bk^*` for waves of equal reflectivity, 0 otherwise. -/
theorem spinDensityMatrixElem_eq_partial (hrx : LiteralRx rx) (hL : Labelled r labels) (K : ℕ) (hK : ∀ l ∈ labels, l.rank < K) {i j : ℕ} {A B : Wave}
    (hi : IsWave r labels i A) (hj : IsWave r labels j B) :
    r.spinDens rx i j = .ok (if A.refl = B.refl then
      (r.normNmbEvents : ℂ) * ∑ k ∈ range K, ampOf r labels A k * (starRingEnd ℂ) (ampOf r labels B k) else 0) :=
  hL.spinDens_eq hrx K hK hi.2 hj.2 hi.1 hj.1

/-- some bound of the ranks. -/
theorem exists_rank_bound (labels : List Label) : ∃ K, ∀ l ∈ labels, l.rank < K := by
  induction labels with
  | nil => exact ⟨0, by simp⟩
  | cons l ls ih =>
    obtain ⟨K, hK⟩ := ih
    refine ⟨max K (l.rank + 1), fun m hm => ?_⟩
    rcases List.mem_cons.1 hm with rfl | hm
    · omega
    · have := hK m hm; omega

/-- every wave of the fit result is a wave of its amplitudes. -/
theorem exists_isWave (hL : Labelled r labels) {i : ℕ} (hi : i < r.waveNames.length) : ∃ A, IsWave r labels i A := by
  obtain ⟨l, hl, hn⟩ := hL.waves _ (List.getElem_mem hi)
  exact ⟨l.wave, by rw [List.getElem?_eq_getElem hi, hn], l, hl, rfl⟩

/-- the matrix is Hermitian: `ρ_BA = ρ_AB^*`. -/
theorem spinDensityMatrixElem_hermitian (hrx : LiteralRx rx) (hL : Labelled r labels) {i j : ℕ} (hi : i < r.waveNames.length)
    (hj : j < r.waveNames.length) : ∃ z, r.spinDens rx i j = .ok z ∧ r.spinDens rx j i = .ok ((starRingEnd ℂ) z) := by
  obtain ⟨K, hK⟩ := exists_rank_bound labels
  obtain ⟨A, hA⟩ := exists_isWave hL hi
  obtain ⟨B, hB⟩ := exists_isWave hL hj
  refine ⟨_, spinDensityMatrixElem_eq_partial hrx hL K hK hA hB, (spinDensityMatrixElem_eq_partial hrx hL K hK hB hA).trans ?_⟩
  refine congrArg Outcome.ok ?_
  by_cases h : A.refl = B.refl
  · rw [if_pos h, if_pos h.symm]
    simp only [map_mul, map_sum, Complex.conj_conj, Complex.conj_natCast]
    congr 1
    exact sum_congr rfl fun k _ => mul_comm _ _
  · rw [if_neg h, if_neg (Ne.symm h)]; simp

/-- the matrix is positive semi-definite: no superposition of waves has a negative intensity. -/
theorem spinDensityMatrix_posSemidef (hrx : LiteralRx rx) (hL : Labelled r labels) (ws : Finset ℕ) (hws : ∀ i ∈ ws, i < r.waveNames.length)
    (rho : ℕ → ℕ → ℂ) (hrho : ∀ i ∈ ws, ∀ j ∈ ws, r.spinDens rx i j = .ok (rho i j)) (c : ℕ → ℂ) :
    0 ≤ (∑ i ∈ ws, ∑ j ∈ ws, c i * (starRingEnd ℂ) (c j) * rho i j).re ∧
    (∑ i ∈ ws, ∑ j ∈ ws, c i * (starRingEnd ℂ) (c j) * rho i j).im = 0 := by
  obtain ⟨K, hK⟩ := exists_rank_bound labels
  choose! W hW using fun i (hi : i ∈ ws) => exists_isWave hL (hws i hi)
  set a : ℤ → ℕ → ℕ → ℂ := fun e k i => if (W i).refl = e then c i * ampOf r labels (W i) k else 0 with ha
  have key : ∑ i ∈ ws, ∑ j ∈ ws, c i * (starRingEnd ℂ) (c j) * rho i j =
      (((r.normNmbEvents : ℝ) * ∑ e ∈ ({-1, 0, 1} : Finset ℤ), ∑ k ∈ range K, Complex.normSq (∑ i ∈ ws, a e k i) : ℝ) : ℂ) := by
    have h1 : ∀ i ∈ ws, ∀ j ∈ ws, c i * (starRingEnd ℂ) (c j) * rho i j =
        (r.normNmbEvents : ℂ) * ∑ e ∈ ({-1, 0, 1} : Finset ℤ), ∑ k ∈ range K, a e k i * (starRingEnd ℂ) (a e k j) := by
      intro i hi j hj
      have h2 := (hrho i hi j hj).symm.trans (spinDensityMatrixElem_eq_partial hrx hL K hK (hW i hi) (hW j hj))
      have h2 := Outcome.ok.inj h2
      rw [h2]
      have hre : ∀ w : Wave, w.refl ∈ ({-1, 0, 1} : Finset ℤ) := by
        intro w
        cases w with
        | flat => simp [Wave.refl]
        | pw w => cases h : w.pos <;> simp [Wave.refl, h]
      rw [sum_eq_single_of_mem (W i).refl (hre _)]
      · simp only [ha]
        by_cases h : (W i).refl = (W j).refl
        · simp only [if_pos h, if_pos h.symm, if_true, map_mul, mul_sum]
          refine sum_congr rfl fun k _ => ?_
          ring
        · simp only [if_neg h, if_neg (Ne.symm h), map_zero, mul_zero, sum_const_zero]
      · intro e _ hne
        refine sum_eq_zero fun k _ => ?_
        simp only [ha]
        rw [if_neg (Ne.symm hne), zero_mul]
    rw [sum_congr rfl fun i hi => sum_congr rfl fun j hj => h1 i hi j hj]
    simp only [← mul_sum]
    push_cast
    congr 1
    calc _ = ∑ i ∈ ws, ∑ e ∈ ({-1, 0, 1} : Finset ℤ), ∑ j ∈ ws, ∑ k ∈ range K, a e k i * (starRingEnd ℂ) (a e k j) :=
          sum_congr rfl fun i _ => sum_comm
      _ = ∑ e ∈ ({-1, 0, 1} : Finset ℤ), ∑ i ∈ ws, ∑ j ∈ ws, ∑ k ∈ range K, a e k i * (starRingEnd ℂ) (a e k j) := sum_comm
      _ = _ := by
        refine sum_congr rfl fun e _ => ?_
        calc _ = ∑ i ∈ ws, ∑ k ∈ range K, ∑ j ∈ ws, a e k i * (starRingEnd ℂ) (a e k j) := sum_congr rfl fun i _ => sum_comm
          _ = ∑ k ∈ range K, ∑ i ∈ ws, ∑ j ∈ ws, a e k i * (starRingEnd ℂ) (a e k j) := sum_comm
          _ = _ := by
            refine sum_congr rfl fun k _ => ?_
            rw [← Complex.mul_conj, map_sum, sum_mul_sum]
  rw [key]
  refine ⟨?_, Complex.ofReal_im _⟩
  rw [Complex.ofReal_re]
  exact mul_nonneg (Nat.cast_nonneg _) (sum_nonneg fun e _ => sum_nonneg fun k _ => Complex.normSq_nonneg _)

/-- intensity of one wave: `N Σ_k |V_k|²` times the normalization integral. -/
theorem intensity_eq (hrx : LiteralRx rx) (hL : Labelled r labels) (K : ℕ) (hK : ∀ l ∈ labels, l.rank < K) {i : ℕ} {A : Wave}
    (hi : IsWave r labels i A) :
    r.intensity rx i = .ok ((r.normNmbEvents : ℝ) * (∑ k ∈ range K, Complex.normSq (ampOf r labels A k)) * (r.normIntegral.entry i i).re) := by
  unfold FitResult.intensity
  rw [spinDensityMatrixElem_eq_partial hrx hL K hK hi hi, if_pos rfl]
  refine congrArg Outcome.ok ?_
  congr 1
  rw [sum_congr rfl fun k _ => Complex.mul_conj _]
  rw [← Complex.ofReal_sum, ← Complex.ofReal_natCast, ← Complex.ofReal_mul, Complex.ofReal_re]

/-! ### coherent sums -/

/-- the loop of `intensity(pattern)` when all elements are defined. -/
theorem intensityLoop_eq (r : FitResult) (ws : List ℕ) (rho : ℕ → ℕ → ℂ) (hrho : ∀ i ∈ ws, ∀ j ∈ ws, r.spinDens rx i j = .ok (rho i j)) :
    r.intensityLoop rx ws = .ok (∑ i ∈ range ws.length, ((rho (ws.getD i 0) (ws.getD i 0)).re * (r.normIntegral.entry (ws.getD i 0) (ws.getD i 0)).re +
      ∑ j ∈ range i, 2 * (rho (ws.getD i 0) (ws.getD j 0) * r.normIntegral.entry (ws.getD i 0) (ws.getD j 0)).re)) := by
  have hmem : ∀ i < ws.length, ws.getD i 0 ∈ ws := fun i hi => by
    rw [List.getD_eq_getElem _ _ hi]; exact List.getElem_mem hi
  have inner : ∀ i < ws.length, ∀ n ≤ i, ∀ s : ℝ, (List.range n).foldlM (fun s j => do
      let o ← r.overlap rx (ws.getD i 0) (ws.getD j 0)
      Outcome.ok (s + o)) s = .ok (s + ∑ j ∈ range n, 2 * (rho (ws.getD i 0) (ws.getD j 0) * r.normIntegral.entry (ws.getD i 0) (ws.getD j 0)).re) := by
    intro i hi n
    induction n with
    | zero => intro _ s; simp
    | succ n ih =>
      intro hn s
      rw [List.range_succ, List.foldlM_append, ih (by omega) s, sum_range_succ]
      unfold FitResult.overlap
      simp only [List.foldlM_cons, List.foldlM_nil, Outcome.ok_bind, hrho _ (hmem i hi) _ (hmem n (by omega)), Outcome.pure_eq]
      exact congrArg Outcome.ok (by ring)
  unfold FitResult.intensityLoop
  have outer : ∀ n ≤ ws.length, (List.range n).foldlM (fun s i => do
      let x ← r.intensity rx (ws.getD i 0)
      (List.range i).foldlM (fun s j => do
        let o ← r.overlap rx (ws.getD i 0) (ws.getD j 0)
        Outcome.ok (s + o)) (s + x)) (0 : ℝ) = .ok (∑ i ∈ range n, ((rho (ws.getD i 0) (ws.getD i 0)).re * (r.normIntegral.entry (ws.getD i 0) (ws.getD i 0)).re +
      ∑ j ∈ range i, 2 * (rho (ws.getD i 0) (ws.getD j 0) * r.normIntegral.entry (ws.getD i 0) (ws.getD j 0)).re)) := by
    intro n
    induction n with
    | zero => intro _; simp
    | succ n ih =>
      intro hn
      rw [List.range_succ, List.foldlM_append, ih (by omega), sum_range_succ]
      unfold FitResult.intensity
      simp only [List.foldlM_cons, List.foldlM_nil, Outcome.ok_bind, hrho _ (hmem n (by omega)) _ (hmem n (by omega)), inner n (by omega) n le_rfl, Outcome.pure_eq]
      exact congrArg Outcome.ok (by ring)
  exact outer _ le_rfl

/-- triangular sum of a Hermitian family = full sum. -/
theorem triangle_sum (f : ℕ → ℕ → ℝ) (hf : ∀ i j, f i j = f j i) (n : ℕ) :
    ∑ i ∈ range n, (f i i + ∑ j ∈ range i, 2 * f i j) = ∑ i ∈ range n, ∑ j ∈ range n, f i j := by
  induction n with
  | zero => simp
  | succ n ih =>
    rw [sum_range_succ, ih, sum_range_succ _ n]
    simp only [sum_range_succ _ n, sum_add_distrib]
    rw [show ∑ i ∈ range n, f i n = ∑ i ∈ range n, f n i from sum_congr rfl fun i _ => hf _ _, ← mul_sum]
    ring

/-- the intensity of all waves that match a pattern is the sum over all pairs of matching waves of `ρ_AB I_AB` with the
normalization integrals `I`. -/
theorem intensityOf_eq (hrx : LiteralRx rx) (hL : Labelled r labels) (hherm : ∀ i j, r.normIntegral.entry j i = (starRingEnd ℂ) (r.normIntegral.entry i j))
    (pat : Name) : ∃ rho : ℕ → ℕ → ℂ, (∀ i < r.waveNames.length, ∀ j < r.waveNames.length, r.spinDens rx i j = .ok (rho i j)) ∧
      r.intensityOf rx pat = .ok (∑ i ∈ (range r.waveNames.length).filter (fun i => rx pat (r.waveNames.getD i []) = true),
        ∑ j ∈ (range r.waveNames.length).filter (fun i => rx pat (r.waveNames.getD i []) = true), rho i j * r.normIntegral.entry i j).re := by
  have hex : ∀ i j, ∃ z, i < r.waveNames.length → j < r.waveNames.length → r.spinDens rx i j = .ok z ∧ r.spinDens rx j i = .ok ((starRingEnd ℂ) z) := by
    intro i j
    by_cases h : i < r.waveNames.length ∧ j < r.waveNames.length
    · obtain ⟨z, hz⟩ := spinDensityMatrixElem_hermitian hrx hL h.1 h.2
      exact ⟨z, fun _ _ => hz⟩
    · exact ⟨0, fun h1 h2 => absurd ⟨h1, h2⟩ h⟩
  choose rho hrho using hex
  have hconj : ∀ i < r.waveNames.length, ∀ j < r.waveNames.length, rho j i = (starRingEnd ℂ) (rho i j) := fun i hi j hj =>
    Outcome.ok.inj ((hrho j i hj hi).1.symm.trans (hrho i j hi hj).2)
  refine ⟨rho, fun i hi j hj => (hrho i j hi hj).1, ?_⟩
  set ws := r.waveIndicesMatching rx pat with hws
  have hnd : ws.Nodup := List.nodup_range.filter _
  have hset : (range r.waveNames.length).filter (fun i => rx pat (r.waveNames.getD i []) = true) = ws.toFinset := by
    ext i
    simp only [mem_filter, mem_range, List.mem_toFinset, hws, FitResult.waveIndicesMatching, List.mem_filter, List.mem_range]
    refine and_congr_right fun hi => ?_
    rw [List.getElem?_eq_getElem hi, List.getD_eq_getElem _ _ hi]
    simp
  have hlt : ∀ i ∈ ws, i < r.waveNames.length := fun i hi => List.mem_range.1 (List.mem_filter.1 hi).1
  have hbase : r.intensityLoop rx ws = .ok (∑ i ∈ ws.toFinset, ∑ j ∈ ws.toFinset, rho i j * r.normIntegral.entry i j).re := by
    rw [intensityLoop_eq r ws rho fun i hi j hj => (hrho i j (hlt i hi) (hlt j hj)).1]
    refine congrArg Outcome.ok ?_
    set F : ℕ → ℕ → ℝ := fun i j => (rho i j * r.normIntegral.entry i j).re with hF
    set G : ℕ → ℕ → ℝ := fun i j => if i < ws.length ∧ j < ws.length then F (ws.getD i 0) (ws.getD j 0) else 0 with hG
    have hm : ∀ i < ws.length, ws.getD i 0 < r.waveNames.length := fun i hi => by
      rw [List.getD_eq_getElem _ _ hi]; exact hlt _ (List.getElem_mem hi)
    have hFsym : ∀ i < r.waveNames.length, ∀ j < r.waveNames.length, F i j = F j i := by
      intro i hi j hj
      simp only [hF]
      rw [hconj i hi j hj, hherm i j, ← map_mul, Complex.conj_re]
    have hGsym : ∀ i j, G i j = G j i := by
      intro i j
      simp only [hG]
      by_cases h : i < ws.length ∧ j < ws.length
      · rw [if_pos h, if_pos h.symm]; exact hFsym _ (hm i h.1) _ (hm j h.2)
      · rw [if_neg h, if_neg (fun e => h e.symm)]
    have hdiag : ∀ i < r.waveNames.length, (rho i i).re * (r.normIntegral.entry i i).re = F i i := by
      intro i hi
      have h1 := hconj i hi i hi
      have h2 : (rho i i).im = 0 := by
        have := congrArg Complex.im h1
        rw [Complex.conj_im] at this; linarith
      simp only [hF, Complex.mul_re, h2]; ring
    have hsumlist : ∀ H : ℕ → ℝ, ∑ i ∈ range ws.length, H (ws.getD i 0) = ∑ i ∈ ws.toFinset, H i := by
      intro H
      rw [List.sum_toFinset H hnd, sum_range]
      rw [← List.sum_ofFn]
      congr 1
      refine List.ext_getElem (by simp) fun n h1 h2 => ?_
      simp at h1 h2 ⊢
    calc _ = ∑ i ∈ range ws.length, (G i i + ∑ j ∈ range i, 2 * G i j) := by
          refine sum_congr rfl fun i hi => ?_
          have hi := mem_range.1 hi
          rw [hdiag _ (hm i hi)]
          simp only [hG]
          rw [if_pos ⟨hi, hi⟩]
          congr 1
          refine sum_congr rfl fun j hj => ?_
          rw [if_pos ⟨hi, (mem_range.1 hj).trans hi⟩]
      _ = ∑ i ∈ range ws.length, ∑ j ∈ range ws.length, G i j := triangle_sum G hGsym _
      _ = ∑ i ∈ range ws.length, ∑ j ∈ range ws.length, F (ws.getD i 0) (ws.getD j 0) := by
          refine sum_congr rfl fun i hi => sum_congr rfl fun j hj => ?_
          simp only [hG]
          rw [if_pos ⟨mem_range.1 hi, mem_range.1 hj⟩]
      _ = ∑ i ∈ range ws.length, ∑ j ∈ ws.toFinset, F (ws.getD i 0) j := sum_congr rfl fun i _ => hsumlist _
      _ = ∑ i ∈ ws.toFinset, ∑ j ∈ ws.toFinset, F i j := hsumlist (fun i => ∑ j ∈ ws.toFinset, F i j)
      _ = _ := by simp only [hF, Complex.re_sum]
  rw [hset]
  unfold FitResult.intensityOf
  rw [← hws]
  match hcase : ws with
  | [] => simp
  | [w] =>
    rw [← hbase]
    unfold FitResult.intensityLoop
    simp only [List.length_singleton, List.range_one, List.foldlM_cons, List.foldlM_nil, List.getD_cons_zero, List.range_zero]
    cases h : r.intensity rx w <;> simp
  | a :: b :: t => exact hbase

/-- the intensity of a wave is not negative. -/
theorem intensity_nonneg (hrx : LiteralRx rx) (hL : Labelled r labels) {i : ℕ} (hi : i < r.waveNames.length)
    (h0 : 0 ≤ (r.normIntegral.entry i i).re) : ∃ x, r.intensity rx i = .ok x ∧ 0 ≤ x := by
  obtain ⟨K, hK⟩ := exists_rank_bound labels
  obtain ⟨A, hA⟩ := exists_isWave hL hi
  exact ⟨_, intensity_eq hrx hL K hK hA, mul_nonneg (mul_nonneg (Nat.cast_nonneg _) (sum_nonneg fun k _ => Complex.normSq_nonneg _)) h0⟩

/-- neither is that of any selection of waves, when the integrals are weighted sums `I_AB = Σ_e w_e ψ_A(e) ψ_B(e)^*` over
events with positive weights. -/
theorem intensityOf_nonneg (hrx : LiteralRx rx) (hL : Labelled r labels) (E : Finset ℕ) (w : ℕ → ℝ) (hw : ∀ e ∈ E, 0 ≤ w e) (psi : ℕ → ℕ → ℂ)
    (hI : ∀ i j, r.normIntegral.entry i j = ∑ e ∈ E, (w e : ℂ) * (psi e i * (starRingEnd ℂ) (psi e j))) (pat : Name) :
    ∃ x, r.intensityOf rx pat = .ok x ∧ 0 ≤ x := by
  obtain ⟨rho, hrho, hx⟩ := intensityOf_eq hrx hL (by
    intro i j
    rw [hI, hI, map_sum]
    refine sum_congr rfl fun e _ => ?_
    simp only [map_mul, Complex.conj_ofReal, Complex.conj_conj]; ring) pat
  refine ⟨_, hx, ?_⟩
  set ws := (range r.waveNames.length).filter (fun i => rx pat (r.waveNames.getD i []) = true)
  have hlt : ∀ i ∈ ws, i < r.waveNames.length := fun i hi => mem_range.1 (mem_filter.1 hi).1
  have : ∑ i ∈ ws, ∑ j ∈ ws, rho i j * r.normIntegral.entry i j =
      ∑ e ∈ E, (w e : ℂ) * ∑ i ∈ ws, ∑ j ∈ ws, psi e i * (starRingEnd ℂ) (psi e j) * rho i j := by
    simp only [hI, mul_sum]
    calc _ = ∑ i ∈ ws, ∑ e ∈ E, ∑ j ∈ ws, rho i j * ((w e : ℂ) * (psi e i * (starRingEnd ℂ) (psi e j))) :=
          sum_congr rfl fun i _ => sum_comm
      _ = ∑ e ∈ E, ∑ i ∈ ws, ∑ j ∈ ws, rho i j * ((w e : ℂ) * (psi e i * (starRingEnd ℂ) (psi e j))) := sum_comm
      _ = _ := sum_congr rfl fun e _ => sum_congr rfl fun i _ => sum_congr rfl fun j _ => by ring
  rw [this, Complex.re_sum]
  refine sum_nonneg fun e he => ?_
  rw [Complex.re_ofReal_mul]
  exact mul_nonneg (hw e he) (spinDensityMatrix_posSemidef hrx hL ws hlt rho (fun i hi j hj => hrho i (hlt i hi) j (hlt j hj)) (psi e)).1

end Rpwa.Fit

import Verif.Props.ResonanceFit
import Mathlib.Algebra.BigOperators.Ring.Finset
import Mathlib.Data.ZMod.Basic
import Mathlib.Order.Interval.Finset.Nat

/-!
# C50: mass ranges and number of data points of a resonance fit
-/

namespace Rpwa.ResFit

open Spec

/-! ## mass range of one wave -/

/-- **C50.** For increasing mass-bin centres: the mass bins between the limits computed for a wave are
exactly those whose centre is within the mass limits of the wave, a negative limit meaning "no limit" —
provided that the upper limit is not below the first mass bin. -/
theorem waveLimits_spec {n : ℕ} {center : ℕ → ℝ} (hc : ∀ i j, i < j → j < n → center i < center j)
    {lim : ℝ × ℝ} (hhi : lim.2 < 0 ∨ center 0 ≤ lim.2) {m : ℕ} (hm : m < n) :
    ((waveLimits n center lim).1 ≤ m ∧ m ≤ (waveLimits n center lim).2) ↔ usesBin lim (center m) := by
  classical
  have inv : ∀ k ≤ n,
      let r := (List.range k).foldl (fun (r : ℕ × ℕ) m =>
        let first := if center m < lim.1 then m + 1 else r.1
        let first := if center m = lim.1 then m else first
        (first, if center m ≤ lim.2 then m else r.2)) (0, n - 1)
      r.1 ≤ k ∧ (∀ m < k, r.1 ≤ m ↔ lim.1 ≤ center m) ∧
      ((∀ m < k, lim.2 < center m) → r.2 = n - 1) ∧
      ((∃ m < k, center m ≤ lim.2) → ∀ m < n, m ≤ r.2 ↔ (m < k ∧ center m ≤ lim.2)) := by
    intro k
    induction k with
    | zero =>
      intro _
      refine ⟨le_rfl, fun m hm => by omega, fun _ => rfl, ?_⟩
      rintro ⟨m, hm, _⟩; omega
    | succ k ih =>
      intro hk
      obtain ⟨h1, h2, h3, h4⟩ := ih (by omega)
      rw [List.range_succ, List.foldl_append, List.foldl_cons, List.foldl_nil]
      dsimp only at h1 h2 h3 h4 ⊢
      refine ⟨?_, ?_, ?_, ?_⟩
      · split
        · omega
        · split
          · omega
          · omega
      · intro m hm
        by_cases e1 : center k = lim.1
        · rw [if_pos e1]
          rcases Nat.lt_succ_iff_lt_or_eq.mp hm with h | rfl
          · have := hc m k h (by omega)
            constructor
            · intro h'; omega
            · intro h'; linarith
          · rw [e1]; simp
        · rw [if_neg e1]
          by_cases e2 : center k < lim.1
          · rw [if_pos e2]
            have : center m ≤ center k := by
              rcases Nat.lt_succ_iff_lt_or_eq.mp hm with h | rfl
              · exact (hc m k h (by omega)).le
              · exact le_rfl
            constructor
            · intro h'; omega
            · intro h'; linarith
          · rw [if_neg e2]
            rcases Nat.lt_succ_iff_lt_or_eq.mp hm with h | rfl
            · exact h2 m h
            · constructor
              · intro _; exact not_lt.mp e2
              · intro _; exact h1
      · intro hall
        rw [if_neg (not_le.mpr (hall k (by omega)))]
        exact h3 (fun m hm => hall m (by omega))
      · rintro ⟨m0, hm0, hle0⟩ m hmn
        by_cases e : center k ≤ lim.2
        · rw [if_pos e]
          constructor
          · intro hmk
            refine ⟨by omega, ?_⟩
            rcases Nat.lt_or_eq_of_le hmk with h | rfl
            · exact le_trans (hc m k h (by omega)).le e
            · exact e
          · rintro ⟨h, _⟩; omega
        · rw [if_neg e]
          have hex : ∃ m < k, center m ≤ lim.2 := by
            refine ⟨m0, ?_, hle0⟩
            rcases Nat.lt_succ_iff_lt_or_eq.mp hm0 with h | rfl
            · exact h
            · exact absurd hle0 e
          rw [h4 hex m hmn]
          constructor
          · rintro ⟨h, h'⟩; exact ⟨by omega, h'⟩
          · rintro ⟨h, h'⟩
            refine ⟨?_, h'⟩
            rcases Nat.lt_succ_iff_lt_or_eq.mp h with h | rfl
            · exact h
            · exact absurd h' e
  obtain ⟨_, h2, h3, h4⟩ := inv n le_rfl
  dsimp only at h2 h3 h4
  unfold waveLimits usesBin
  dsimp only
  refine and_congr ?_ ?_
  · by_cases hl : lim.1 < 0
    · rw [if_pos hl]; simp [hl]
    · rw [if_neg hl, h2 m hm]; simp [hl]
  · by_cases hl : lim.2 < 0
    · rw [if_pos hl]
      constructor
      · intro _; exact Or.inl hl
      · intro _; omega
    · rw [if_neg hl]
      have hc0 : center 0 ≤ lim.2 := hhi.resolve_left hl
      rw [h4 ⟨0, by omega, hc0⟩ m hm]
      simp [hl, hm]

/-- A pair of waves is compared in the mass bins that both waves use. -/
theorem pairLimits_spec (I : Input) (lims : ℕ → ℕ → ℝ × ℝ) (b i j : ℕ) {m : ℕ} :
    ((pairLimits I lims b i j).1 ≤ m ∧ m ≤ (pairLimits I lims b i j).2) ↔
      ((pairLimits I lims b i i).1 ≤ m ∧ m ≤ (pairLimits I lims b i i).2) ∧
      ((pairLimits I lims b j j).1 ≤ m ∧ m ≤ (pairLimits I lims b j j).2) := by
  unfold pairLimits
  dsimp only
  rw [max_self, max_self, min_self, min_self, max_le_iff, le_min_iff]
  tauto

/-- an upper mass limit below the first mass bin is ignored: the wave is used in all mass bins
although none of them is within its limits -/
theorem waveLimits_ignored :
    (waveLimits 3 (fun m => 1 + (m : ℝ)) (-1, 1 / 2)) = (0, 2) ∧
      ∀ m : ℕ, ¬ usesBin (-1, 1 / 2) (1 + (m : ℝ)) := by
  constructor
  · unfold waveLimits
    simp only [List.range_succ, List.range_zero, List.nil_append, List.foldl_append, List.foldl_cons,
      List.foldl_nil]
    norm_num
  · rintro m ⟨_, h | h⟩
    · norm_num at h
    · dsimp only at h
      have : (0 : ℝ) ≤ m := Nat.cast_nonneg m
      linarith

/-! ## number of data points -/

theorem spanOf_eq {n : ℕ} {l : ℕ × ℕ} (h1 : l.1 ≤ l.2 + 1) (h2 : l.2 < n) :
    spanOf l = ((∑ m ∈ Finset.range n, if l.1 ≤ m ∧ m ≤ l.2 then 1 else 0 : ℕ) : ZMod (2 ^ 64)) := by
  have : (∑ m ∈ Finset.range n, if l.1 ≤ m ∧ m ≤ l.2 then 1 else 0 : ℕ) = l.2 + 1 - l.1 := by
    rw [← Finset.card_filter]
    have : (Finset.range n).filter (fun m => l.1 ≤ m ∧ m ≤ l.2) = Finset.Icc l.1 l.2 := by
      ext m
      rw [Finset.mem_filter, Finset.mem_range, Finset.mem_Icc]
      constructor
      · exact fun h => h.2
      · exact fun h => ⟨by omega, h⟩
    rw [this, Nat.card_Icc]
  rw [this, Nat.cast_sub h1]
  unfold spanOf
  push_cast
  ring

theorem foldl_add_sum' {β : Type} [AddCommMonoid β] (g : ℕ → β) (n : ℕ) (a : β) :
    (List.range n).foldl (fun s x => s + g x) a = a + ∑ x ∈ Finset.range n, g x := by
  induction n with
  | zero => simp
  | succ n ih =>
    rw [List.range_succ, List.foldl_append, ih, Finset.sum_range_succ, List.foldl_cons,
      List.foldl_nil, add_assoc]

theorem sum_symm_pairs (n : ℕ) (f : ℕ → ℕ → ℕ) (hf : ∀ i j, f i j = f j i) :
    ∑ i ∈ Finset.range n, ∑ j ∈ Finset.range n, f i j
      = ∑ i ∈ Finset.range n, ∑ j ∈ Finset.range n,
          if i ≤ j then (if i = j then f i j else 2 * f i j) else 0 := by
  have h1 : ∀ i j, f i j = (if i < j then f i j else 0) + (if i = j then f i j else 0)
      + (if j < i then f i j else 0) := by
    intro i j
    rcases Nat.lt_trichotomy i j with h | h | h
    · simp [h, h.ne, Nat.lt_asymm h]
    · simp [h]
    · simp [h, h.ne', Nat.lt_asymm h]
  have h2 : ∀ i j, (if i ≤ j then (if i = j then f i j else 2 * f i j) else 0)
      = (if i < j then f i j else 0) + (if i = j then f i j else 0) + (if i < j then f i j else 0) := by
    intro i j
    rcases Nat.lt_trichotomy i j with h | h | h
    · simp [h, h.ne, h.le]; omega
    · simp [h]
    · simp [h, h.ne', Nat.lt_asymm h, Nat.not_le.mpr h]
  simp only [h2]
  conv_lhs => enter [2, i, 2, j]; rw [h1 i j]
  simp only [Finset.sum_add_distrib]
  congr 1
  rw [Finset.sum_comm]
  refine Finset.sum_congr rfl fun i _ => Finset.sum_congr rfl fun j _ => ?_
  rw [hf j i]

/-- **C50.** The number of data points is the number of real numbers compared in the chi-square,
provided that the mass ranges of any two waves of a bin overlap or touch. -/
theorem nrDataPoints_spec {I : Input} {cfg : Cfg} {lims : ℕ → ℕ → ℝ × ℝ} {F : Fn}
    (hF : Built I cfg lims F)
    (hov : ∀ b < I.nrBins, ∀ i < F.nrWaves b, ∀ j < F.nrWaves b,
      (F.D.limits b i j).1 ≤ (F.D.limits b i j).2 + 1) :
    F.nrDataPoints = ((dataPoints F : ℕ) : ZMod (2 ^ 64)) := by
  classical
  have hr := readModel_ok hF.model
  have hD := hF.dataOk
  have hI := hr.input
  let c : ℕ → ℕ → ℕ → ℕ := fun b i j =>
    ∑ m ∈ Finset.range (F.M.input.nrMassOf b), if inLimits F.D b m i j then 1 else 0
  have hspan : ∀ b < F.M.input.nrBins, ∀ i < F.nrWaves b, ∀ j < F.nrWaves b,
      spanOf (F.D.limits b i j) = ((c b i j : ℕ) : ZMod (2 ^ 64)) := by
    intro b hb i hi j hj
    exact (spanOf_eq (hov b (by rw [← hI]; exact hb) i hi j hj)
      (lt_of_le_of_lt (hD.pairHi b hb i hi j hj) (hD.max b hb i hi))).trans
      (congrArg _ (Finset.sum_congr rfl fun m _ => if_congr Iff.rfl rfl rfl))
  have hsymm : ∀ b i j, c b i j = c b j i := by
    intro b i j
    refine Finset.sum_congr rfl fun m _ => if_congr ?_ rfl rfl
    unfold inLimits
    rw [hF.limits b i j, hF.limits b j i]
    unfold pairLimits
    dsimp only
    rw [max_comm, min_comm]
  have hbin : ∀ b < F.M.input.nrBins, ∀ a : ZMod (2 ^ 64),
      (if F.useProdAmps then
        (List.range (F.nrWaves b)).foldl (fun n w =>
          let n := n + spanOf (F.D.limits b w w)
          if w ≠ F.M.anchorWave.getD b 0 then n + spanOf (F.D.limits b w w) else n) a
      else
        (List.range (F.nrWaves b)).foldl (fun n i =>
          (List.range (F.nrWaves b)).foldl (fun n j => n + spanOf (F.D.limits b i j)) n) a)
      = a + ((∑ m ∈ Finset.range (F.M.input.nrMassOf b),
          if F.useProdAmps then
            ∑ w ∈ Finset.range (F.nrWaves b),
              if inLimits F.D b m w w then (if w = F.M.anchorWave.getD b 0 then 1 else 2) else 0
          else
            ∑ i ∈ Finset.range (F.nrWaves b), ∑ j ∈ Finset.range (F.nrWaves b),
              if i ≤ j ∧ inLimits F.D b m i j then (if i = j then 1 else 2) else 0 : ℕ) :
          ZMod (2 ^ 64)) := by
    intro b hb a
    cases hp : F.useProdAmps with
    | true =>
      simp only [if_true]
      have hf : (fun (n : ZMod (2 ^ 64)) w =>
          let n := n + spanOf (F.D.limits b w w)
          if w ≠ F.M.anchorWave.getD b 0 then n + spanOf (F.D.limits b w w) else n)
          = fun n w => n + (if w = F.M.anchorWave.getD b 0 then spanOf (F.D.limits b w w)
              else spanOf (F.D.limits b w w) + spanOf (F.D.limits b w w)) := by
        funext n w
        dsimp only
        by_cases hw : w = F.M.anchorWave.getD b 0
        · rw [if_neg (not_not.mpr hw), if_pos hw]
        · rw [if_pos hw, if_neg hw, add_assoc]
      rw [hf, foldl_add_sum']
      congr 1
      rw [Finset.sum_comm, Nat.cast_sum]
      refine Finset.sum_congr rfl fun w hw => ?_
      have hw := Finset.mem_range.mp hw
      rw [hspan b hb w hw w hw]
      by_cases hwa : w = F.M.anchorWave.getD b 0
      · rw [if_pos hwa]
        simp only [if_pos hwa, c]
      · rw [if_neg hwa, ← Nat.cast_add]
        congr 1
        simp only [if_neg hwa, c]
        rw [← two_mul, Finset.mul_sum]
        refine Finset.sum_congr rfl fun m _ => ?_
        split <;> rfl
    | false =>
      simp only [Bool.false_eq_true, if_false]
      have hf : (fun (n : ZMod (2 ^ 64)) i =>
          (List.range (F.nrWaves b)).foldl (fun n j => n + spanOf (F.D.limits b i j)) n)
          = fun n i => n + ∑ j ∈ Finset.range (F.nrWaves b), spanOf (F.D.limits b i j) := by
        funext n i
        exact foldl_add_sum' _ _ _
      rw [hf, foldl_add_sum']
      congr 1
      have h1 : (∑ i ∈ Finset.range (F.nrWaves b), ∑ j ∈ Finset.range (F.nrWaves b),
          spanOf (F.D.limits b i j))
          = ((∑ i ∈ Finset.range (F.nrWaves b), ∑ j ∈ Finset.range (F.nrWaves b), c b i j : ℕ) :
            ZMod (2 ^ 64)) := by
        rw [Nat.cast_sum]
        refine Finset.sum_congr rfl fun i hi => ?_
        rw [Nat.cast_sum]
        refine Finset.sum_congr rfl fun j hj => ?_
        exact hspan b hb i (Finset.mem_range.mp hi) j (Finset.mem_range.mp hj)
      rw [h1, sum_symm_pairs _ _ (hsymm b)]
      congr 1
      symm
      rw [Finset.sum_comm]
      refine Finset.sum_congr rfl fun i _ => ?_
      rw [Finset.sum_comm]
      refine Finset.sum_congr rfl fun j _ => ?_
      symm
      by_cases hij : i ≤ j
      · rw [if_pos hij]
        by_cases e : i = j
        · rw [if_pos e]
          refine Finset.sum_congr rfl fun m _ => ?_
          simp only [hij, true_and, if_pos e]
        · rw [if_neg e, Finset.mul_sum]
          refine Finset.sum_congr rfl fun m _ => ?_
          simp only [hij, true_and, if_neg e]
          split <;> rfl
      · rw [if_neg hij]
        symm
        refine Finset.sum_eq_zero fun m _ => ?_
        rw [if_neg (fun h => hij h.1)]
  unfold Fn.nrDataPoints dataPoints
  have : ∀ n ≤ F.M.input.nrBins, ∀ a : ZMod (2 ^ 64),
      (List.range n).foldl (fun n b =>
        if F.useProdAmps then
          (List.range (F.nrWaves b)).foldl (fun n w =>
            let n := n + spanOf (F.D.limits b w w)
            if w ≠ F.M.anchorWave.getD b 0 then n + spanOf (F.D.limits b w w) else n) n
        else
          (List.range (F.nrWaves b)).foldl (fun n i =>
            (List.range (F.nrWaves b)).foldl (fun n j => n + spanOf (F.D.limits b i j)) n) n) a
      = a + ((∑ b ∈ Finset.range n, ∑ m ∈ Finset.range (F.M.input.nrMassOf b),
          if F.useProdAmps then
            ∑ w ∈ Finset.range (F.nrWaves b),
              if inLimits F.D b m w w then (if w = F.M.anchorWave.getD b 0 then 1 else 2) else 0
          else
            ∑ i ∈ Finset.range (F.nrWaves b), ∑ j ∈ Finset.range (F.nrWaves b),
              if i ≤ j ∧ inLimits F.D b m i j then (if i = j then 1 else 2) else 0 : ℕ) :
          ZMod (2 ^ 64)) := by
    intro n
    induction n with
    | zero => intro _ a; simp
    | succ n ih =>
      intro hn a
      rw [List.range_succ, List.foldl_append, List.foldl_cons, List.foldl_nil, ih (by omega) a,
        hbin n (by omega), Finset.sum_range_succ, Nat.cast_add, add_assoc]
  rw [this _ le_rfl, zero_add]

end Rpwa.ResFit

import Mathlib.Algebra.BigOperators.Intervals
import Mathlib.Algebra.BigOperators.Group.List.Basic
import Mathlib.Tactic.Abel
import Verif.Model.Accumulators
/-!
# C07: accumulators return the exact sum

Specification: `List.sum`.
-/
namespace Rpwa.Acc
open Finset

section lemmas
variable {M : Type*} [AddCommMonoid M]

private theorem passLoop_eq (f : Nat → M) (i k : Nat) :
    passLoop f i k = fun j => if i ≤ j ∧ j < i + k then f (2 * j) + f (2 * j + 1) else f j := by
  induction k generalizing f i with
  | zero => funext j; simp only [passLoop]; rw [if_neg (by omega)]
  | succ k ih =>
    rw [passLoop, ih]
    funext j
    by_cases h : i + 1 ≤ j ∧ j < i + 1 + k
    · have h1 : ¬ (2 * j = i) := by omega
      have h2 : ¬ (2 * j + 1 = i) := by omega
      have h3 : i ≤ j ∧ j < i + (k + 1) := by omega
      simp only [if_pos h, if_neg h1, if_neg h2, if_pos h3]
    · rw [if_neg h]
      by_cases hj : j = i
      · subst hj; rw [if_pos rfl, if_pos (by omega)]
      · rw [if_neg hj, if_neg (by omega)]

private theorem sum_pairs (f : Nat → M) (n : Nat) :
    ∑ j ∈ range n, (f (2 * j) + f (2 * j + 1)) = ∑ j ∈ range (2 * n), f j := by
  induction n with
  | zero => simp
  | succ n ih =>
    rw [sum_range_succ, ih, Nat.mul_succ, sum_range_succ, sum_range_succ, add_assoc]

private theorem sum_halved (f : Nat → M) (n : Nat) (g : Nat → M)
    (hg : ∀ j, j < n / 2 → g j = f (2 * j) + f (2 * j + 1)) (ho : n % 2 > 0 → g (n / 2) = f (n - 1)) :
    ∑ j ∈ range ((n + 1) / 2), g j = ∑ j ∈ range n, f j := by
  rcases Nat.mod_two_eq_zero_or_one n with h | h
  · have e1 : (n + 1) / 2 = n / 2 := by omega
    have e2 : n = 2 * (n / 2) := by omega
    rw [e1]
    conv_rhs => rw [e2]
    rw [← sum_pairs]
    exact sum_congr rfl fun j hj => hg j (by simpa using hj)
  · have e1 : (n + 1) / 2 = n / 2 + 1 := by omega
    have e2 : n = 2 * (n / 2) + 1 := by omega
    rw [e1, sum_range_succ, ho (by omega)]
    conv_rhs => rw [e2]
    rw [sum_range_succ, ← sum_pairs]
    congr 1
    · exact sum_congr rfl fun j hj => hg j (by simpa using hj)
    · congr 1; omega

private theorem whileLoop_eq (fuel n : Nat) (f : Nat → M) (hn : 2 ≤ n) (hf : n ≤ fuel + 2) :
    whileLoop fuel n f = ∑ j ∈ range n, f j := by
  induction fuel generalizing n f with
  | zero =>
    have : n = 2 := by omega
    subst this; simp [whileLoop, sum_range_succ]
  | succ k ih =>
    rw [whileLoop]
    by_cases h : n > 2
    · rw [if_pos h]
      simp only []
      rw [ih _ _ (by omega) (by omega)]
      apply sum_halved
      · intro j hj
        rw [passLoop_eq]
        split
        · have h1 : ¬ (j = n / 2) := by omega
          have h2 : 0 ≤ j ∧ j < 0 + n / 2 := by omega
          simp only [if_neg h1, if_pos h2]
        · have h2 : 0 ≤ j ∧ j < 0 + n / 2 := by omega
          simp only [if_pos h2]
      · intro ho
        rw [if_pos ho, passLoop_eq]
        have h2 : ¬ (0 ≤ n - 1 ∧ n - 1 < 0 + n / 2) := by omega
        simp only [if_true, if_neg h2]
    · rw [if_neg h]
      have : n = 2 := by omega
      subst this; simp [sum_range_succ]

private theorem sum_getD (l : List M) : ∑ j ∈ range l.length, l.getD j 0 = l.sum := by
  induction l with
  | nil => simp
  | cons x xs ih =>
    rw [List.length_cons, sum_range_succ', List.sum_cons, ← ih, add_comm]; simp

private theorem result_eq (s : Casc M) : s.result = s.partials.sum := by
  rw [← sum_getD]
  unfold Casc.result
  generalize hp : s.partials = p
  simp only []
  by_cases h0 : p.length = 0
  · simp [h0]
  rw [if_neg h0]
  by_cases h1 : p.length = 1
  · simp [h1]
  rw [if_neg h1]
  by_cases h2 : p.length = 2
  · simp [h2, sum_range_succ]
  rw [if_neg h2, whileLoop_eq _ _ _ (by omega) (by omega)]
  apply sum_halved
  · intro j hj; rw [if_pos hj]
  · intro _; rw [if_neg (by omega), if_pos rfl]

/-- state after `k` samples, sum so far `S`, given room for `n` partial sums. -/
private structure Good (s : Casc M) (k n : Nat) (S : M) : Prop where
  len : s.partials.length = n
  idx : s.index = k / 2
  nxt : s.sumNext = decide (k % 2 = 1)
  sum : k ≠ 0 → s.partials.sum = S
  tail : ∀ i, (k + 1) / 2 ≤ i → 0 < i → s.partials.getD i 0 = 0
  first : k = 0 → S = 0

private theorem sum_set (l : List M) (i : Nat) (v x : M) (h : l[i]? = some v) :
    v + (l.set i x).sum = x + l.sum := by
  induction l generalizing i with
  | nil => simp at h
  | cons y ys ih =>
    cases i with
    | zero => simp at h; subst h; simp; rw [← add_assoc, ← add_assoc, add_comm y x]
    | succ i =>
      simp only [List.getElem?_cons_succ] at h
      have := ih i h
      simp only [List.set_cons_succ, List.sum_cons]
      rw [add_left_comm, this, add_left_comm]

private theorem sum_set_zero (l : List M) (i : Nat) (x : M) (hi : i < l.length) (h : l.getD i 0 = 0) :
    (l.set i x).sum = x + l.sum := by
  have : l[i]? = some 0 := by
    rw [List.getElem?_eq_getElem hi]
    simp [List.getD, List.getElem?_eq_getElem hi] at h; rw [h]
  have := sum_set l i 0 x this
  simpa using this

private theorem good_add (s : Casc M) (k n : Nat) (S x : M) (h : Good s k n S) :
    (k / 2 < n → ∃ s', s.add x = .ok s' ∧ Good s' (k + 1) n (S + x)) ∧
    (n ≤ k / 2 → k % 2 = 0 → s.add x = .ub) := by
  have hlen := h.len; have hidx := h.idx; have hnxt := h.nxt
  rcases Nat.mod_two_eq_zero_or_one k with hk | hk
  · have hn : s.sumNext = false := by rw [hnxt]; simp [hk]
    refine ⟨fun hlt => ?_, fun hge _ => ?_⟩
    · have hi : s.index < s.partials.length := by omega
      refine ⟨⟨true, s.index, s.partials.set s.index x⟩, ?_, ?_⟩
      · unfold Casc.add
        rw [hn]
        simp only [Bool.false_eq_true, if_false]
        rw [if_neg (by omega), List.getElem?_eq_getElem hi]
        rfl
      · refine ⟨by simp [hlen], by simp only; omega, by simp; omega, fun _ => ?_, ?_, by omega⟩
        · simp only
          by_cases hk0 : k = 0
          · have hS : S = 0 := h.first hk0
            have hi0 : s.index = 0 := by omega
            rw [hS, zero_add, hi0]
            rw [← sum_getD]
            rw [List.length_set]
            obtain ⟨m, hm⟩ : ∃ m, s.partials.length = m + 1 := ⟨s.partials.length - 1, by omega⟩
            rw [hm, sum_range_succ']
            have hz : ∀ j, j ∈ range m → (s.partials.set 0 x).getD (j + 1) 0 = 0 := by
              intro j _
              have := h.tail (j + 1) (by omega) (by omega)
              simp only [List.getD, List.getElem?_set] at this ⊢
              simpa using this
            rw [sum_eq_zero hz]
            simp [List.getD, hm]
          · rw [sum_set_zero _ _ _ hi (h.tail s.index (by omega) (by omega)), h.sum hk0, add_comm]
        · intro i hi1 hi2
          have := h.tail i (by omega) hi2
          simp only [List.getD, List.getElem?_set] at this ⊢
          rw [if_neg (by omega)]; exact this
    · unfold Casc.add
      rw [hn]
      simp only [Bool.false_eq_true, if_false]
      rw [if_pos (by omega)]
      have : ((s.partials ++ List.replicate (s.index - s.partials.length) 0).take s.index)[s.index]? = none := by
        rw [List.getElem?_eq_none]; simp
      rw [this]
  · have hn : s.sumNext = true := by rw [hnxt]; simp [hk]
    refine ⟨fun hlt => ?_, fun _ h0 => by omega⟩
    have hi : s.index < s.partials.length := by omega
    have hv : s.partials[s.index]? = some s.partials[s.index] := List.getElem?_eq_getElem hi
    refine ⟨⟨false, s.index + 1, s.partials.set s.index (s.partials[s.index] + x)⟩, ?_, ?_⟩
    · unfold Casc.add
      rw [hn]
      simp only [if_true]
      rw [hv]; rfl
    · refine ⟨by simp [hlen], by simp only; omega, by simp; omega, fun _ => ?_, ?_, by omega⟩
      · simp only
        rw [← h.sum (by omega)]
        have h2 : ∀ (l : List M) (i : Nat) (v : M), l[i]? = some v → (l.set i (v + x)).sum = l.sum + x := by
          intro l
          induction l with
          | nil => intro i v h; simp at h
          | cons y ys ih =>
            intro i v h
            cases i with
            | zero => simp at h; subst h; simp only [List.set_cons_zero, List.sum_cons]; abel
            | succ i =>
              simp only [List.getElem?_cons_succ] at h
              simp only [List.set_cons_succ, List.sum_cons, ih i v h]; abel
        exact h2 _ _ _ hv
      · intro i hi1 hi2
        have := h.tail i (by omega) hi2
        simp only [List.getD, List.getElem?_set] at this ⊢
        rw [if_neg (by omega)]; exact this

private theorem good_addAll (xs : List M) (s : Casc M) (k n : Nat) (S : M) (h : Good s k n S) :
    ((k + xs.length + 1) / 2 ≤ n → ∃ s', s.addAll xs = .ok s' ∧ Good s' (k + xs.length) n (S + xs.sum)) ∧
    (k + xs.length > 2 * n → k ≤ 2 * n → s.addAll xs = .ub) := by
  induction xs generalizing s k S with
  | nil => 
    refine ⟨fun _ => ⟨s, rfl, by simpa using h⟩, fun h1 h2 => ?_⟩
    simp only [List.length_nil] at h1; omega
  | cons x xs ih =>
    have ha := good_add s k n S x h
    simp only [List.length_cons]
    refine ⟨fun hle => ?_, fun h1 h2 => ?_⟩
    · obtain ⟨s', e1, g1⟩ := ha.1 (by omega)
      obtain ⟨s'', e2, g2⟩ := (ih s' (k + 1) (S + x) g1).1 (by omega)
      refine ⟨s'', by simp [Casc.addAll, e1, Outcome.bind, e2], ?_⟩
      have e3 : k + (xs.length + 1) = k + 1 + xs.length := by omega
      rw [List.sum_cons, e3, ← add_assoc S]; exact g2
    · by_cases hk : k / 2 < n
      · obtain ⟨s', e1, g1⟩ := ha.1 hk
        have e2 := (ih s' (k + 1) (S + x) g1).2 (by omega) (by omega)
        simp [Casc.addAll, e1, Outcome.bind, e2]
      · have e1 := ha.2 (by omega) (by omega)
        simp [Casc.addAll, e1, Outcome.bind]

private theorem good_new (N : Nat) (i : M) : Good (Casc.new N i) 0 ((N + 1) / 2) 0 := by
  have e : N / 2 + (if N % 2 > 0 then 1 else 0) = (N + 1) / 2 := by split <;> omega
  refine ⟨?_, rfl, rfl, by simp, ?_, fun _ => rfl⟩
  · simp only [Casc.new, e]
    split
    · simp
    · rename_i h; simp at h ⊢; omega
  · intro j _ hj
    simp only [Casc.new, e]
    split
    · simp only [List.getD, List.getElem?_set]
      rw [if_neg (by omega)]
      rw [List.getElem?_replicate]; split <;> simp
    · simp

end lemmas

/-- C07 for the compensated sum: the result is the initial value plus all samples, for every sequence. -/
theorem compensated_sum_exact {M : Type*} [AddCommGroup M] (initial : M) (xs : List M) :
    (xs.foldl Kahan.add (Kahan.new initial)).result = initial + xs.sum := by
  have key : ∀ (s : Kahan M), s.comp = 0 →
      (xs.foldl Kahan.add s).sum = s.sum + xs.sum ∧ (xs.foldl Kahan.add s).comp = 0 := by
    induction xs with
    | nil => intro s h; simp [h]
    | cons x xs ih =>
      intro s h
      have hc : (s.add x).comp = 0 := by simp [Kahan.add, h]
      have hs : (s.add x).sum = s.sum + x := by simp [Kahan.add, h]
      obtain ⟨a, b⟩ := ih (s.add x) hc
      refine ⟨?_, b⟩
      rw [List.foldl_cons, a, hs, List.sum_cons, add_assoc]
  exact (key (Kahan.new initial) rfl).1

example : ([1, 2, 3].foldl Kahan.add (Kahan.new (5 : Int))).result = 11 := by decide

/-- The full property C07 for the cascaded sum: all samples are summed, for every announced number. -/
def CascadedExact (M : Type) [AddCommMonoid M] : Prop :=
  ∀ (nmbValues : Nat) (xs : List M),
    ∃ s, (Casc.new nmbValues (0 : M)).addAll xs = .ok s ∧ s.result = xs.sum

/-- C07 (partial): if at most the announced number of samples (rounded up to an even number) is fed in, the
cascaded accumulator stays inside its storage and returns the exact sum. -/
theorem cascaded_sum_exact_partial {M : Type*} [AddCommMonoid M] (nmbValues : Nat) (initial : M)
    (xs : List M) (hne : xs ≠ []) (h : (xs.length + 1) / 2 ≤ (nmbValues + 1) / 2) :
    ∃ s, (Casc.new nmbValues initial).addAll xs = .ok s ∧ s.result = xs.sum := by
  obtain ⟨s, h1, h2⟩ := (good_addAll xs _ 0 _ 0 (good_new nmbValues initial)).1 (by simpa using h)
  have hne' : 0 + xs.length ≠ 0 := by
    have := List.length_pos_iff.2 hne; omega
  exact ⟨s, h1, by rw [result_eq, h2.sum hne', zero_add]⟩

example : ([3, 1, 4, 1, 5] : List Int) ≠ [] ∧ ([3, 1, 4, 1, 5] : List Int).length ≤ 5 := by decide

/-- C07: without samples the result is the initial value (if at least one sample was announced). -/
theorem cascaded_sum_no_samples {M : Type*} [AddCommMonoid M] (nmbValues : Nat) (initial : M)
    (h : 0 < nmbValues) : (Casc.new nmbValues initial).result = initial := by
  rw [result_eq]
  simp only [Casc.new]
  rw [if_pos (by split <;> omega)]
  obtain ⟨m, hm⟩ : ∃ m, nmbValues / 2 + (if nmbValues % 2 > 0 then 1 else 0) = m + 1 :=
    ⟨nmbValues / 2 + (if nmbValues % 2 > 0 then 1 else 0) - 1, by split <;> omega⟩
  rw [hm, List.replicate_succ]
  simp

example : (0 : Nat) < 4 := by decide

/-- C07 is violated beyond the announced number: as soon as more samples than there is room for are fed
in, the accumulator writes outside its storage (line 100 resizes to the index instead of index + 1). -/
theorem cascaded_sum_overflow_ub {M : Type*} [AddCommMonoid M] (nmbValues : Nat) (initial : M)
    (xs : List M) (h : 2 * ((nmbValues + 1) / 2) < xs.length) :
    (Casc.new nmbValues initial).addAll xs = .ub :=
  (good_addAll xs _ 0 _ 0 (good_new nmbValues initial)).2 (by omega) (by omega)

example : 2 * ((2 + 1) / 2) < ([1, 2, 3] : List Int).length := by decide

theorem not_cascadedExact : ¬ CascadedExact Int := by
  intro h
  obtain ⟨s, h1, _⟩ := h 1 [1, 2, 3]
  rw [cascaded_sum_overflow_ub 1 (0 : Int) [1, 2, 3] (by decide)] at h1
  cases h1

/-- An initial value is lost by the cascaded sum as soon as a sample arrives (while the compensated sum
keeps it). -/
theorem cascaded_sum_drops_initial :
    ∃ s, (Casc.new 2 (5 : Int)).addAll [1] = .ok s ∧ s.result = 1 ∧
      ([1].foldl Kahan.add (Kahan.new (5 : Int))).result = 6 :=
  ⟨⟨true, 0, [1]⟩, rfl, rfl, rfl⟩

end Rpwa.Acc

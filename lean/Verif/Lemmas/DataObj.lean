import Verif.Spec.DataObj
import Verif.Props.FitChi2
/-! # Lemmas for C107 -/
namespace Rpwa.DataObj

open Rpwa.Arrays

theorem mem_pairs {n m : ℕ} {x : ℕ × ℕ} : x ∈ pairs n m ↔ x.1 < n ∧ x.2 < m := by
  unfold pairs
  simp only [List.mem_flatMap, List.mem_range, List.mem_map]
  constructor
  · rintro ⟨i, hi, j, hj, rfl⟩; exact ⟨hi, hj⟩
  · intro h; exact ⟨x.1, h.1, x.2, h.2, rfl⟩

open Classical in
/-- a loop in which every step writes some elements, always with the same value for the same index. -/
theorem foldl_touch {T σ : Type} (S : List ℕ) (val : List ℕ → T) (touch : σ → List ℕ → Prop) (step : Arr T → σ → Outcome (Arr T)) (l : List σ)
    (h : ∀ x ∈ l, ∀ a : Arr T, a.shape = S →
      ∃ a', step a x = .ok a' ∧ a'.shape = S ∧ ∀ y, a'.elem y = if touch x y then val y else a.elem y) :
    ∀ a : Arr T, a.shape = S →
      ∃ a', l.foldlM step a = .ok a' ∧ a'.shape = S ∧ ∀ y, a'.elem y = if ∃ x ∈ l, touch x y then val y else a.elem y := by
  induction l with
  | nil => intro a ha; exact ⟨a, rfl, ha, fun y => by simp⟩
  | cons x l ih =>
    intro a ha
    obtain ⟨a1, h1, s1, e1⟩ := h x (by simp) a ha
    obtain ⟨a2, h2, s2, e2⟩ := ih (fun z hz => h z (by simp [hz])) a1 s1
    refine ⟨a2, by rw [List.foldlM_cons, h1, Outcome.ok_bind, h2], s2, fun y => ?_⟩
    rw [e2, e1]
    by_cases hx : touch x y <;> by_cases hl : ∃ z ∈ l, touch z y <;> simp [hx, hl]

/-- a loop in which a step ends the program. -/
theorem foldl_bad {T σ : Type} (S : List ℕ) (good : σ → Prop) (step : Arr T → σ → Outcome (Arr T)) (l : List σ)
    (h : ∀ x ∈ l, good x → ∀ a : Arr T, a.shape = S → ∃ a', step a x = .ok a' ∧ a'.shape = S)
    (hb : ∀ x ∈ l, ¬ good x → ∀ a : Arr T, a.shape = S → step a x = .terminate) (hex : ∃ x ∈ l, ¬ good x) :
    ∀ a : Arr T, a.shape = S → l.foldlM step a = .terminate := by
  induction l with
  | nil => obtain ⟨x, hx, _⟩ := hex; cases hx
  | cons x l ih =>
    intro a ha
    by_cases hx : good x
    · obtain ⟨a1, h1, s1⟩ := h x (by simp) hx a ha
      rw [List.foldlM_cons, h1, Outcome.ok_bind]
      refine ih (fun z hz => h z (by simp [hz])) (fun z hz => hb z (by simp [hz])) ?_ a1 s1
      obtain ⟨z, hz, hbad⟩ := hex
      rcases List.mem_cons.1 hz with rfl | hz
      · exact absurd hx hbad
      · exact ⟨z, hz, hbad⟩
    · rw [List.foldlM_cons, hb x (by simp) hx a ha, Outcome.terminate_bind]

theorem inRange_nil : inRange [] [] = true := rfl

theorem inRange_cons (i d : ℕ) (is ds : List ℕ) : inRange (i :: is) (d :: ds) = true ↔ i < d ∧ inRange is ds = true := by
  simp [inRange]

theorem at_ok {T : Type} (a : Arr T) (x : List ℕ) (h : inRange x a.shape = true) : a.at x = .ok (a.elem x) := by
  unfold Arr.at; rw [if_pos h]

theorem put_ok {T : Type} (a : Arr T) (x : List ℕ) (v : T) (h : inRange x a.shape = true) :
    a.put x v = .ok { a with elem := fun y => if y = x then v else a.elem y } := by
  unfold Arr.put; rw [if_pos h]

theorem checkSize_self (l : List ℕ) : checkSize l l = .ok () := by
  induction l with
  | nil => rfl
  | cons x l ih => simp [checkSize, ih]

theorem checkSize_ne (l s : List ℕ) (hl : s.length = l.length) (h : s ≠ l) : checkSize l s = .terminate := by
  induction l generalizing s with
  | nil => exact absurd (List.length_eq_zero_iff.1 hl) h
  | cons x l ih =>
    cases s with
    | nil => simp at hl
    | cons y s =>
      unfold checkSize
      by_cases hxy : y = x
      · rw [if_neg (not_not.2 hxy)]
        exact ih s (by simpa using hl) fun hs => h (by rw [hxy, hs])
      · rw [if_pos hxy]

theorem checkSize_iff (l s : List ℕ) (hl : s.length = l.length) : checkSize l s = .ok () ↔ s = l := by
  constructor
  · intro h
    by_contra hne
    rw [checkSize_ne l s hl hne] at h
    cases h
  · rintro rfl; exact checkSize_self _

theorem foldl_max (xs : List ℕ) : ∀ x, (xs.foldl max x = x ∨ xs.foldl max x ∈ xs) ∧ x ≤ xs.foldl max x ∧ ∀ n ∈ xs, n ≤ xs.foldl max x := by
  induction xs with
  | nil => intro x; simp
  | cons y xs ih =>
    intro x
    rw [List.foldl_cons]
    obtain ⟨h1, h2, h3⟩ := ih (max x y)
    refine ⟨?_, by omega, ?_⟩
    · rcases h1 with h1 | h1
      · rw [h1]
        rcases Nat.le_total x y with h | h
        · right; simp [Nat.max_eq_right h]
        · left; omega
      · right; simp [h1]
    · intro n hn
      rcases List.mem_cons.1 hn with rfl | hn
      · omega
      · exact h3 n hn

theorem maxElement_spec (v : List ℕ) (hv : v ≠ []) : ∃ w, maxElement v = .ok w ∧ w ∈ v ∧ ∀ n ∈ v, n ≤ w := by
  cases v with
  | nil => exact absurd rfl hv
  | cons x xs =>
    obtain ⟨h1, h2, h3⟩ := foldl_max xs x
    refine ⟨_, rfl, ?_, ?_⟩
    · rcases h1 with h | h
      · rw [h]; simp
      · simp [h]
    · intro n hn
      rcases List.mem_cons.1 hn with rfl | hn
      · exact h2
      · exact h3 n hn

theorem vecAt_ok (v : List ℕ) (i n : ℕ) (h : v[i]? = some n) : vecAt v i = .ok n := by
  obtain ⟨hi, rfl⟩ := List.getElem?_eq_some_iff.1 h
  unfold vecAt
  rw [if_pos hi]
  simp [hi]

/-- the weight matrix at an index is missing, or has the right size. -/
def goodAt (nrWaves : List ℕ) (size : ℕ → ℕ) (src : Arr (Mat ℝ)) (x : ℕ × ℕ) : Prop :=
  ((src.elem [x.1, x.2]).rows = 0 ∧ (src.elem [x.1, x.2]).cols = 0) ∨
    ∃ n, nrWaves[x.1]? = some n ∧ (src.elem [x.1, x.2]).rows = size n ∧ (src.elem [x.1, x.2]).cols = size n

theorem inRange_two (i j n m : ℕ) : inRange [i, j] [n, m] = true ↔ i < n ∧ j < m := by simp [inRange]

open Classical in
theorem copyMatrix_good (nrWaves : List ℕ) (size : ℕ → ℕ) (m : ℕ) (src : Arr (Mat ℝ)) (hs : src.shape = [nrWaves.length, m]) (x : ℕ × ℕ)
    (hx : x.1 < nrWaves.length ∧ x.2 < m) (hg : goodAt nrWaves size src x) (t : Arr (Mat ℝ)) (ht : t.shape = [nrWaves.length, m]) :
    ∃ t', copyMatrix nrWaves size src t x = .ok t' ∧ t'.shape = [nrWaves.length, m] ∧
      ∀ y, t'.elem y = if (y = [x.1, x.2] ∧ ¬ ((src.elem y).rows = 0 ∧ (src.elem y).cols = 0)) then src.elem y else t.elem y := by
  have hr : inRange [x.1, x.2] [nrWaves.length, m] = true := (inRange_two _ _ _ _).2 hx
  unfold copyMatrix
  rw [at_ok src _ (by rw [hs]; exact hr), Outcome.ok_bind]
  by_cases h0 : (src.elem [x.1, x.2]).rows = 0 ∧ (src.elem [x.1, x.2]).cols = 0
  · rw [if_pos h0]
    refine ⟨t, rfl, ht, fun y => ?_⟩
    rw [if_neg]
    rintro ⟨rfl, h⟩; exact h h0
  · rw [if_neg h0]
    rcases hg with h | ⟨n, hn, h1, h2⟩
    · exact absurd h h0
    rw [at_ok t _ (by rw [ht]; exact hr), Outcome.ok_bind, put_ok t _ _ (by rw [ht]; exact hr), Outcome.ok_bind, vecAt_ok _ _ _ hn, Outcome.ok_bind,
      at_ok _ _ (by dsimp only; rw [ht]; exact hr), Outcome.ok_bind]
    simp only [if_true, Ops.mat]
    rw [if_neg (not_not.2 h1.symm), if_neg (not_not.2 h2.symm)]
    refine ⟨_, rfl, ht, fun y => ?_⟩
    dsimp only
    by_cases hy : y = [x.1, x.2]
    · subst hy; rw [if_pos rfl, if_pos ⟨rfl, h0⟩]
    · rw [if_neg hy, if_neg (fun h => hy h.1)]

theorem copyMatrix_bad (nrWaves : List ℕ) (size : ℕ → ℕ) (m : ℕ) (src : Arr (Mat ℝ)) (hs : src.shape = [nrWaves.length, m]) (x : ℕ × ℕ)
    (hx : x.1 < nrWaves.length ∧ x.2 < m) (hg : ¬ goodAt nrWaves size src x) (t : Arr (Mat ℝ)) (ht : t.shape = [nrWaves.length, m]) :
    copyMatrix nrWaves size src t x = .terminate := by
  have hr : inRange [x.1, x.2] [nrWaves.length, m] = true := (inRange_two _ _ _ _).2 hx
  unfold copyMatrix
  have h0 : ¬ ((src.elem [x.1, x.2]).rows = 0 ∧ (src.elem [x.1, x.2]).cols = 0) := fun h => hg (Or.inl h)
  have hn : nrWaves[x.1]? = some (nrWaves[x.1]'hx.1) := by simp [hx.1]
  rw [at_ok src _ (by rw [hs]; exact hr), Outcome.ok_bind, if_neg h0,
    at_ok t _ (by rw [ht]; exact hr), Outcome.ok_bind, put_ok t _ _ (by rw [ht]; exact hr), Outcome.ok_bind, vecAt_ok _ _ _ hn, Outcome.ok_bind,
      at_ok _ _ (by dsimp only; rw [ht]; exact hr), Outcome.ok_bind]
  simp only [if_true, Ops.mat]
  by_cases h1 : size (nrWaves[x.1]'hx.1) = (src.elem [x.1, x.2]).rows
  · rw [if_neg (not_not.2 h1)]
    rw [if_pos]
    intro h2
    exact hg (Or.inr ⟨_, hn, h1.symm, h2.symm⟩)
  · rw [if_pos h1]

theorem goodAt_iff (nrWaves : List ℕ) (size : ℕ → ℕ) (m : ℕ) (src : Arr (Mat ℝ)) :
    GoodMatrices nrWaves m size src ↔ ∀ x ∈ pairs nrWaves.length m, goodAt nrWaves size src x := by
  constructor
  · intro h x hx
    have hx' := mem_pairs.1 hx
    have hn : nrWaves[x.1]? = some (nrWaves[x.1]'hx'.1) := by simp [hx'.1]
    rcases h x.1 _ x.2 hn hx'.2 with h | h
    · exact Or.inl h
    · exact Or.inr ⟨_, hn, h⟩
  · intro h b n k hn hk
    obtain ⟨hb, _⟩ := List.getElem?_eq_some_iff.1 hn
    rcases h (b, k) (mem_pairs.2 ⟨hb, hk⟩) with h | ⟨n', hn', h⟩
    · exact Or.inl h
    · rw [hn] at hn'; cases hn'; exact Or.inr h

theorem copyMatrices_good (nrWaves : List ℕ) (size : ℕ → ℕ) (m : ℕ) (src : Arr (Mat ℝ)) (hs : src.shape = [nrWaves.length, m])
    (hg : GoodMatrices nrWaves m size src) :
    ∃ t, copyMatrices nrWaves size nrWaves.length m src = .ok t ∧ t.shape = [nrWaves.length, m] ∧
      ∀ b k, b < nrWaves.length → k < m → SameMat (t.elem [b, k]) (src.elem [b, k]) ∧
        (¬ ((src.elem [b, k]).rows = 0 ∧ (src.elem [b, k]).cols = 0) → t.elem [b, k] = src.elem [b, k]) := by
  classical
  obtain ⟨t, h1, h2, h3⟩ := foldl_touch [nrWaves.length, m] (fun y => src.elem y)
    (fun x y => y = [x.1, x.2] ∧ ¬ ((src.elem y).rows = 0 ∧ (src.elem y).cols = 0)) (copyMatrix nrWaves size src) (pairs nrWaves.length m)
    (fun x hx a ha => by
      obtain ⟨t', p1, p2, p3⟩ := copyMatrix_good nrWaves size m src hs x (mem_pairs.1 hx) ((goodAt_iff _ _ _ _).1 hg x hx) a ha
      exact ⟨t', p1, p2, fun y => by convert p3 y⟩)
    ((Arr.new (Ops.mat (0 : ℝ)) [0, 0]).resize (Ops.mat (0 : ℝ)) src.shape) hs
  refine ⟨t, ?_, h2, ?_⟩
  · unfold copyMatrices
    dsimp only
    rw [show ((Arr.new (Ops.mat (0 : ℝ)) [0, 0]).resize (Ops.mat (0 : ℝ)) src.shape).shape = [nrWaves.length, m] from hs, checkSize_self,
      Outcome.ok_bind]
    exact h1
  · intro b k hb hk
    rw [h3]
    by_cases h0 : (src.elem [b, k]).rows = 0 ∧ (src.elem [b, k]).cols = 0
    · rw [if_neg (by rintro ⟨_, _, _, h⟩; exact h h0)]
      refine ⟨?_, fun h => absurd h0 h⟩
      have : ((Arr.new (Ops.mat (0 : ℝ)) [0, 0]).resize (Ops.mat (0 : ℝ)) src.shape).elem [b, k] = ⟨0, 0, fun _ _ => 0⟩ := by
        unfold Arr.resize Arr.new
        simp [inRange, Ops.mat]
      rw [this]
      exact ⟨h0.1.symm, h0.2.symm, fun i j hi => absurd hi (Nat.not_lt_zero _)⟩
    · rw [if_pos ⟨(b, k), mem_pairs.2 ⟨hb, hk⟩, rfl, h0⟩]
      exact ⟨⟨rfl, rfl, fun _ _ _ _ => rfl⟩, fun _ => rfl⟩

theorem copyMatrices_bad (nrWaves : List ℕ) (size : ℕ → ℕ) (m : ℕ) (src : Arr (Mat ℝ)) (hd : src.shape.length = 2)
    (hg : ¬ (src.shape = [nrWaves.length, m] ∧ GoodMatrices nrWaves m size src)) :
    copyMatrices nrWaves size nrWaves.length m src = .terminate := by
  unfold copyMatrices
  dsimp only
  by_cases hs : src.shape = [nrWaves.length, m]
  · rw [show ((Arr.new (Ops.mat (0 : ℝ)) [0, 0]).resize (Ops.mat (0 : ℝ)) src.shape).shape = [nrWaves.length, m] from hs, checkSize_self,
      Outcome.ok_bind]
    have hbad : ∃ x ∈ pairs nrWaves.length m, ¬ goodAt nrWaves size src x := by
      by_contra hcon
      push Not at hcon
      exact hg ⟨hs, (goodAt_iff _ _ _ _).2 hcon⟩
    refine foldl_bad [nrWaves.length, m] (goodAt nrWaves size src) _ _ ?_ ?_ hbad _ hs
    · intro x hx hgood a ha
      obtain ⟨t', p1, p2, _⟩ := copyMatrix_good nrWaves size m src hs x (mem_pairs.1 hx) hgood a ha
      exact ⟨t', p1, p2⟩
    · intro x hx hb a ha
      exact copyMatrix_bad nrWaves size m src hs x (mem_pairs.1 hx) hb a ha
  · rw [show ((Arr.new (Ops.mat (0 : ℝ)) [0, 0]).resize (Ops.mat (0 : ℝ)) src.shape).shape = src.shape from rfl,
      checkSize_ne [nrWaves.length, m] _ hd hs, Outcome.terminate_bind]

end Rpwa.DataObj

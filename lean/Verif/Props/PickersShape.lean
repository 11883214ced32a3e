import Verif.Props.PickersInit
import Mathlib.Analysis.Calculus.MeanValue
import Mathlib.Analysis.Calculus.Deriv.MeanValue
import Mathlib.MeasureTheory.Integral.IntervalIntegral.FundThmCalculus
/-! The t' distribution and its primitive -/
namespace Rpwa.Pick

/-- primitive of a sum of exponentials. -/
noncomputable def primSum (es : List (ℝ × ℝ)) (t : ℝ) : ℝ := (es.map fun e => e.1 * Real.exp (e.2 * t) / e.2).sum

theorem foldl_pairs (h : ℝ → ℝ → ℝ) : ∀ (k : ℕ) (l : List ℝ) (x : ℝ), l.length = 2 * k →
    (List.range k).foldl (fun x i => x + h (l.getD (2 * i) 0) (l.getD (2 * i + 1) 0)) x = x + ((exponentials.go l).map fun e => h e.1 e.2).sum := by
  intro k
  induction k with
  | zero =>
    intro l x hl
    rw [List.length_eq_zero_iff.1 hl]
    show x = x + 0
    rw [add_zero]
  | succ k ih =>
    intro l x hl
    match l, hl with
    | c :: p :: l, hl =>
      have hl' : l.length = 2 * k := by
        simp only [List.length_cons] at hl
        omega
      rw [List.range_succ_eq_map, List.foldl_cons, List.foldl_map]
      have := ih l (x + h c p) hl'
      refine Eq.trans ?_ (this.trans ?_)
      · rfl
      · show x + h c p + _ = x + (h c p + _)
        rw [add_assoc]
        rfl

theorem density_eq (n : ℕ) (p : List ℝ) (hp : p.length % 2 = 1) (hn : (p.length + 1) / 2 = n) (t : ℝ) : density n p t = shape p t := by
  cases p with
  | nil => simp at hp
  | cons p0 l =>
    have hl : l.length = 2 * (n - 1) := by
      rw [List.length_cons] at hp hn
      omega
    unfold density shape expSum exponentials
    refine Eq.trans ?_ ((foldl_pairs (fun c p => c * Real.exp (p * t)) (n - 1) l (Real.exp (p0 * t)) hl).trans ?_)
    · rfl
    · show _ = 1 * Real.exp (p0 * t) + _
      rw [one_mul]
      rfl

theorem primitive_eq (n : ℕ) (p : List ℝ) (hp : p.length % 2 = 1) (hn : (p.length + 1) / 2 = n) (t : ℝ) : primitive n p t = primSum (exponentials p) t := by
  cases p with
  | nil => simp at hp
  | cons p0 l =>
    have hl : l.length = 2 * (n - 1) := by
      rw [List.length_cons] at hp hn
      omega
    unfold primitive primSum exponentials
    refine Eq.trans ?_ ((foldl_pairs (fun c p => c * Real.exp (p * t) / p) (n - 1) l (Real.exp (p0 * t) / p0) hl).trans ?_)
    · rfl
    · show _ = 1 * Real.exp (p0 * t) / p0 + _
      rw [one_mul]
      rfl

theorem signs_go (k : ℕ) (l : List ℝ) (hl : l.length = 2 * k) (h : ∀ j < k, 0 ≤ l.getD (2 * j) 0 ∧ l.getD (2 * j + 1) 0 < 0) :
    ∀ e ∈ exponentials.go l, 0 ≤ e.1 ∧ e.2 < 0 := by
  induction k generalizing l with
  | zero =>
    rw [List.length_eq_zero_iff.1 hl]
    intro e he
    cases he
  | succ k ih =>
    match l, hl with
    | c :: p :: l, hl =>
      intro e he
      rcases List.mem_cons.1 he with he | he
      · rw [he]
        exact h 0 (Nat.succ_pos k)
      · refine ih l (by simp only [List.length_cons] at hl; omega) (fun j hj => ?_) e he
        exact h (j + 1) (Nat.succ_lt_succ hj)

/-- the signs required by the picker are those of falling exponentials with non-negative coefficients. -/
theorem falling_of_signs (n : ℕ) (p : List ℝ) (hp : p.length % 2 = 1) (hn : (p.length + 1) / 2 = n) (h : Signs n p) : Falling p := by
  refine ⟨hp, ?_⟩
  cases p with
  | nil => simp at hp
  | cons p0 l =>
    rw [List.length_cons] at hp hn
    intro e he
    rcases List.mem_cons.1 he with he | he
    · rw [he]
      exact ⟨zero_le_one, (h 0 (by omega)).1⟩
    · refine signs_go (n - 1) l (by omega) (fun j hj => ?_) e he
      obtain ⟨a, b⟩ := h (j + 1) (by omega)
      exact ⟨b (Nat.succ_pos j), a⟩

theorem signs_of_falling (n : ℕ) (p : List ℝ) (hn : (p.length + 1) / 2 = n) (h : Falling p) : Signs n p := by
  obtain ⟨hp, h⟩ := h
  cases p with
  | nil => simp at hp
  | cons p0 l =>
    rw [List.length_cons] at hp hn
    have key : ∀ (k : ℕ) (l : List ℝ), l.length = 2 * k → (∀ e ∈ exponentials.go l, 0 ≤ e.1 ∧ e.2 < 0) →
        ∀ j < k, 0 ≤ l.getD (2 * j) 0 ∧ l.getD (2 * j + 1) 0 < 0 := by
      intro k
      induction k with
      | zero => intro l _ _ j hj; exact absurd hj (Nat.not_lt_zero j)
      | succ k ih =>
        intro l hl hE j hj
        match l, hl with
        | c :: p :: l, hl =>
          cases j with
          | zero => exact hE _ List.mem_cons_self
          | succ j => exact ih l (by simp only [List.length_cons] at hl; omega) (fun e he => hE e (List.mem_cons_of_mem _ he)) j (Nat.lt_of_succ_lt_succ hj)
    have := key (n - 1) l (by omega) (fun e he => h e (List.mem_cons_of_mem _ he))
    intro j hj
    cases j with
    | zero => exact ⟨(h _ List.mem_cons_self).2, fun h => absurd h (lt_irrefl 0)⟩
    | succ j =>
      obtain ⟨a, b⟩ := this j (by omega)
      exact ⟨b, fun _ => a⟩

/-! ### analysis -/

theorem expSum_nonneg (es : List (ℝ × ℝ)) (h : ∀ e ∈ es, 0 ≤ e.1 ∧ e.2 < 0) (t : ℝ) : 0 ≤ expSum es t := by
  refine List.sum_nonneg fun x hx => ?_
  obtain ⟨e, he, rfl⟩ := List.mem_map.1 hx
  exact mul_nonneg (h e he).1 (Real.exp_pos _).le

theorem shape_pos (p : List ℝ) (h : Falling p) (t : ℝ) : 0 < shape p t := by
  obtain ⟨hp, h⟩ := h
  cases p with
  | nil => simp at hp
  | cons p0 l =>
    have : shape (p0 :: l) t = 1 * Real.exp (p0 * t) + expSum (exponentials.go l) t := rfl
    rw [this, one_mul]
    exact add_pos_of_pos_of_nonneg (Real.exp_pos _) (expSum_nonneg _ (fun e he => h e (List.mem_cons_of_mem _ he)) t)

theorem expSum_antitone (es : List (ℝ × ℝ)) (h : ∀ e ∈ es, 0 ≤ e.1 ∧ e.2 < 0) : Antitone (expSum es) := by
  intro a b hab
  refine List.sum_le_sum fun e he => ?_
  refine mul_le_mul_of_nonneg_left (Real.exp_le_exp.2 ?_) (h e he).1
  exact mul_le_mul_of_nonpos_left hab (h e he).2.le

theorem hasDerivAt_primSum (es : List (ℝ × ℝ)) (h : ∀ e ∈ es, e.2 ≠ 0) (t : ℝ) : HasDerivAt (primSum es) (expSum es t) t := by
  induction es with
  | nil => exact hasDerivAt_const t 0
  | cons e es ih =>
    have h1 : HasDerivAt (fun t => e.1 * Real.exp (e.2 * t) / e.2) (e.1 * Real.exp (e.2 * t)) t := by
      have h2 : HasDerivAt (fun t : ℝ => e.2 * t) e.2 t := by simpa using (hasDerivAt_id t).const_mul e.2
      have h3 := (h2.exp.const_mul e.1).div_const e.2
      have h4 : e.1 * (Real.exp (e.2 * t) * e.2) / e.2 = e.1 * Real.exp (e.2 * t) := by
        rw [div_eq_iff (h e List.mem_cons_self)]
        ring
      rw [h4] at h3
      exact h3
    exact h1.add (ih fun e he => h e (List.mem_cons_of_mem _ he))

theorem expSum_continuous (es : List (ℝ × ℝ)) : Continuous (expSum es) := by
  induction es with
  | nil => exact continuous_const
  | cons e es ih =>
    have : expSum (e :: es) = fun t => e.1 * Real.exp (e.2 * t) + expSum es t := rfl
    rw [this]
    fun_prop

theorem falling_ne {p : List ℝ} (h : Falling p) : ∀ e ∈ exponentials p, e.2 ≠ 0 := fun e he => ne_of_lt (h.2 e he).2

/-- the integral of the distribution is the difference of the primitive. -/
theorem integral_shape (p : List ℝ) (h : Falling p) (a b : ℝ) : ∫ s in a..b, shape p s = primSum (exponentials p) b - primSum (exponentials p) a :=
  intervalIntegral.integral_eq_sub_of_hasDerivAt (fun x _ => hasDerivAt_primSum _ (falling_ne h) x) ((expSum_continuous _).intervalIntegrable _ _)

end Rpwa.Pick

import Verif.Lemmas.Likelihood
/-! Lemmas for C25. -/
namespace Rpwa.Lik

open Finset Complex

variable (L : LikData)

/-! ### derivative of the gradient along a curve -/

theorem priorDeriv_formula (V : Amps) (s : Slot) (hp : L.prior = .halfCauchy) (hg : L.cauchyWidth ≠ 0) :
    L.priorDeriv V s = ((-2 / (L.cauchyWidth * L.cauchyWidth + normSq (V s)) : ℝ) : ℂ) * V s := by
  by_cases hV : V s = 0
  · unfold LikData.priorDeriv
    rw [hp]
    simp only [hV]
    apply Complex.ext <;> simp
  · exact priorDeriv_eq L V s hp hg hV

/-- derivative of the prior part of the gradient. -/
noncomputable def prior2 (V E : Amps) (s : Slot) : ℂ :=
  match L.prior with
  | .flat => 0
  | .halfCauchy =>
    ((2 * (2 * ((V s) * (starRingEnd ℂ) (E s)).re) / (L.cauchyWidth * L.cauchyWidth + normSq (V s)) ^ 2 : ℝ) : ℂ) * V s
      + ((-2 / (L.cauchyWidth * L.cauchyWidth + normSq (V s)) : ℝ) : ℂ) * E s

theorem priorDeriv_deriv {V : ℝ → Amps} {E : Amps} {t : ℝ} (h : Curve V E t) (s : Slot) (hg : L.prior = .halfCauchy → L.cauchyWidth ≠ 0) :
    HasDerivAt (fun x => L.priorDeriv (V x) s) (prior2 L (V t) E s) t := by
  cases hp : L.prior with
  | flat =>
    have : (fun x => L.priorDeriv (V x) s) = fun _ => 0 := by funext x; simp [LikData.priorDeriv, hp]
    rw [this]
    refine (hasDerivAt_const t (0 : ℂ)).congr_deriv ?_
    simp [prior2, hp]
  | halfCauchy =>
    have hg := hg hp
    have : (fun x => L.priorDeriv (V x) s) = fun x => ((-2 / (L.cauchyWidth * L.cauchyWidth + normSq (V x s)) : ℝ) : ℂ) * V x s := by
      funext x; exact priorDeriv_formula L (V x) s hp hg
    rw [this]
    have hgg : 0 < L.cauchyWidth * L.cauchyWidth := mul_self_pos.2 hg
    have hn : 0 ≤ normSq (V t s) := normSq_nonneg _
    have h0 : L.cauchyWidth * L.cauchyWidth + normSq (V t s) ≠ 0 := by positivity
    have h1 : HasDerivAt (fun x => -2 / (L.cauchyWidth * L.cauchyWidth + normSq (V x s)))
        (2 * (2 * ((V t s) * (starRingEnd ℂ) (E s)).re) / (L.cauchyWidth * L.cauchyWidth + normSq (V t s)) ^ 2) t := by
      refine ((hasDerivAt_const t (-2 : ℝ)).div ((hasDerivAt_normSq (h s)).const_add (L.cauchyWidth * L.cauchyWidth)) h0).congr_deriv ?_
      ring
    refine ((hasDerivAt_ofReal h1).mul (h s)).congr_deriv ?_
    simp only [prior2, hp]

/-- derivative of the gradient array along a curve. -/
noncomputable def deriv2 (V E : Amps) (f f' : ℝ) (s : Slot) : ℂ :=
  (∑ ev ∈ range L.nmbEvents, (((2 * sigma' L V E f f' ev / L.sigma V f ev ^ 2 : ℝ) : ℂ) * L.evtDeriv V ev s
      + -((2 / L.sigma V f ev : ℝ) : ℂ) * (L.ampSum E ev s.1 s.2.1 * (starRingEnd ℂ) (L.decayAmps s.2.1 ev s.2.2))))
    + (∑ j ∈ range (L.nW s.2.1), E (s.1, s.2.1, j) * (starRingEnd ℂ) (L.accMatrix s.2.1 s.2.2 j)) * ((2 * L.nmbEvt : ℝ) : ℂ)
    - prior2 L V E s

theorem factor_deriv {V : ℝ → Amps} {E : Amps} {t : ℝ} (h : Curve V E t) {f : ℝ → ℝ} {f' : ℝ} (hf : HasDerivAt f f' t) (ev : ℕ)
    (hs : L.sigma (V t) (f t) ev ≠ 0) :
    HasDerivAt (fun x => -(2 / L.sigma (V x) (f x) ev)) (2 * sigma' L (V t) E (f t) f' ev / L.sigma (V t) (f t) ev ^ 2) t := by
  refine (((hasDerivAt_const t (2 : ℝ)).div (sigma_deriv L h hf ev) hs).neg).congr_deriv ?_
  ring

theorem derivatives_deriv {V : ℝ → Amps} {E : Amps} {t : ℝ} (h : Curve V E t) {f : ℝ → ℝ} {f' : ℝ} (hf : HasDerivAt f f' t)
    (hs : ∀ ev < L.nmbEvents, L.sigma (V t) (f t) ev ≠ 0) (hg : L.prior = .halfCauchy → L.cauchyWidth ≠ 0) (s : Slot) :
    HasDerivAt (fun x => L.derivatives (V x) (f x) s) (deriv2 L (V t) E (f t) f' s) t := by
  unfold LikData.derivatives deriv2
  refine (HasDerivAt.add ?_ ?_).sub (priorDeriv_deriv L h s hg)
  · refine HasDerivAt.fun_sum fun ev hev => ?_
    have h1 := hasDerivAt_ofReal (factor_deriv L h hf ev (hs ev (mem_range.1 hev)))
    have h2 : HasDerivAt (fun x => L.evtDeriv (V x) ev s)
        (L.ampSum E ev s.1 s.2.1 * (starRingEnd ℂ) (L.decayAmps s.2.1 ev s.2.2)) t := (ampSum_deriv L h ev s.1 s.2.1).mul_const _
    have := h1.mul h2
    simp only [ofReal_neg] at this
    exact this
  · exact (HasDerivAt.fun_sum fun j _ => (h (s.1, s.2.1, j)).mul_const _).mul_const _

theorem derivativeFlat_deriv {V : ℝ → Amps} {E : Amps} {t : ℝ} (h : Curve V E t) {f : ℝ → ℝ} {f' : ℝ} (hf : HasDerivAt f f' t)
    (hs : ∀ ev < L.nmbEvents, L.sigma (V t) (f t) ev ≠ 0) :
    HasDerivAt (fun x => L.derivativeFlat (V x) (f x))
      ((∑ ev ∈ range L.nmbEvents, (2 * sigma' L (V t) E (f t) f' ev / L.sigma (V t) (f t) ev ^ 2 * f t
        + -(2 / L.sigma (V t) (f t) ev) * f')) + f' * (2 * L.nmbEvt) * L.totAcc) t := by
  unfold LikData.derivativeFlat
  refine HasDerivAt.add ?_ ?_
  · exact HasDerivAt.fun_sum fun ev hev => (factor_deriv L h hf ev (hs ev (mem_range.1 hev))).mul hf
  · exact (hf.mul_const _).mul_const _

/-! ### directions -/

/-- the complex number by which the amplitude of a component grows: 1 or i. -/
noncomputable def unit (b : Bool) : ℂ := if b then 1 else I

theorem dir_self (s : Slot) (b : Bool) : dir (s, b) s = unit b := by
  cases b <;> apply Complex.ext <;> simp [dir, unit]

theorem dir_other (s s' : Slot) (b : Bool) (h : s' ≠ s) : dir (s, b) s' = 0 := by
  have : ∀ b', (s, b) ≠ (s', b') := fun b' hh => h (Prod.ext_iff.1 hh).1.symm
  apply Complex.ext <;> simp [dir, this]

theorem ampSum_dir (r e w : ℕ) (b : Bool) (hw : w < L.nW e) (ev r' e' : ℕ) :
    L.ampSum (dir ((r, e, w), b)) ev r' e' = if r' = r ∧ e' = e then unit b * L.decayAmps e ev w else 0 := by
  unfold LikData.ampSum
  split
  · rename_i h
    obtain ⟨rfl, rfl⟩ := h
    rw [sum_eq_single w, dir_self]
    · intro w' _ hne
      rw [dir_other _ _ _ (by simp [hne])]; simp
    · intro hh; simp at hh; omega
  · rename_i h
    refine sum_eq_zero fun w' _ => ?_
    rw [dir_other _ _ _ (by simp only [ne_eq, Prod.mk.injEq]; tauto)]; simp

theorem accSum_dir (r e w : ℕ) (b : Bool) (hw : w < L.nW e) (r' e' i : ℕ) :
    ∑ j ∈ range (L.nW e'), dir ((r, e, w), b) (r', e', j) * (starRingEnd ℂ) (L.accMatrix e' i j) =
      if r' = r ∧ e' = e then unit b * (starRingEnd ℂ) (L.accMatrix e' i w) else 0 := by
  split
  · rename_i h
    obtain ⟨rfl, rfl⟩ := h
    rw [sum_eq_single w, dir_self]
    · intro w' _ hne
      rw [dir_other _ _ _ (by simp [hne])]; simp
    · intro hh; simp at hh; omega
  · rename_i h
    refine sum_eq_zero fun w' _ => ?_
    rw [dir_other _ _ _ (by simp only [ne_eq, Prod.mk.injEq]; tauto)]; simp

theorem sigma'_dir (V : Amps) (f : ℝ) (ev : ℕ) (c : Comp) (hc : c.1.1 < L.rank ∧ c.1.2.1 < 2 ∧ c.1.2.2 < L.nW c.1.2.1) :
    sigma' L V (dir c) f 0 ev = 2 * part (L.evtDeriv V ev c.1) c.2 := by
  rw [sigma'_eq]
  simp only [← mul_sum]
  rw [sum_dir L c hc (L.evtDeriv V ev)]
  ring

/-! ### the values computed by `Hessian` -/

/-- second derivative with respect to two components as computed by the code. -/
noncomputable def hessEntry (V : Amps) (f : ℝ) (c c' : Comp) : ℝ :=
  match c.2, c'.2 with
  | true, true => L.hess V f c.1 c'.1 0
  | true, false => L.hess V f c.1 c'.1 1
  | false, true => L.hess V f c'.1 c.1 1
  | false, false => L.hess V f c.1 c'.1 2

theorem part_add (x y : ℂ) (b : Bool) : part (x + y) b = part x b + part y b := by cases b <;> simp [part]
theorem part_sub (x y : ℂ) (b : Bool) : part (x - y) b = part x b - part y b := by cases b <;> simp [part]
theorem part_sum {ι : Type} (s : Finset ι) (g : ι → ℂ) (b : Bool) : part (∑ i ∈ s, g i) b = ∑ i ∈ s, part (g i) b := by
  cases b <;> simp [part]
theorem part_ofReal_mul (x : ℝ) (z : ℂ) (b : Bool) : part ((x : ℂ) * z) b = x * part z b := by cases b <;> simp [part]
theorem part_mul_ofReal (x : ℝ) (z : ℂ) (b : Bool) : part (z * (x : ℂ)) b = part z b * x := by cases b <;> simp [part]
theorem part_neg (z : ℂ) (b : Bool) : part (-z) b = -part z b := by cases b <;> simp [part]

theorem cauchy_a3 {x g : ℝ} (hg : g ≠ 0) (hx : x ≠ 0) :
    cauchyFunctionDerivative x g / (cauchyFunction x g * x) = -2 / (g * g + x * x) := by
  rw [← cauchy_factor hg hx]
  rw [mul_comm x]
  ring

theorem cauchy_a124 {x g : ℝ} (hg : g ≠ 0) (hx : x ≠ 0) :
    cauchyFunctionSecondDerivative x g / (cauchyFunction x g * x * x)
      - cauchyFunctionDerivative x g * cauchyFunctionDerivative x g / (cauchyFunction x g * cauchyFunction x g * x * x)
      - cauchyFunctionDerivative x g / (cauchyFunction x g * x * x * x) = 4 / (g * g + x * x) ^ 2 := by
  unfold cauchyFunctionSecondDerivative cauchyFunctionDerivative cauchyFunction
  have hgg : 0 < g * g := mul_self_pos.2 hg
  have hxx : 0 ≤ x * x := mul_self_nonneg x
  have h1 : g * g + x * x ≠ 0 := by positivity
  have h2 : 1 + x * x / (g * g) ≠ 0 := by positivity
  have e : (1 : ℝ) / (1 + x * x / (g * g)) = g * g / (g * g + x * x) := by field_simp
  simp only [e]
  field_simp
  ring

/-- the second derivative along the direction of a component is the value of the code. -/
theorem deriv2_dir (hI : L.AccHermitian) (V : Amps) (f : ℝ) (c c' : Comp)
    (hc : c.1.1 < L.rank ∧ c.1.2.1 < 2 ∧ c.1.2.2 < L.nW c.1.2.1) (hc' : c'.1.1 < L.rank ∧ c'.1.2.1 < 2 ∧ c'.1.2.2 < L.nW c'.1.2.1)
    (hp : L.prior = .halfCauchy → L.cauchyWidth ≠ 0 ∧ V c.1 ≠ 0) :
    part (deriv2 L V (dir c') f 0 c.1) c.2 = hessEntry L V f c c' := by
  have hprior : part (prior2 L V (dir c') c.1) c.2 = (match L.prior with
       | .flat => 0
       | .halfCauchy =>
         if c.1 = c'.1 then
           (match c.2, c'.2 with
            | true, true => 4 / (L.cauchyWidth * L.cauchyWidth + normSq (V c.1)) ^ 2 * (V c.1).re * (V c.1).re
                + -2 / (L.cauchyWidth * L.cauchyWidth + normSq (V c.1))
            | true, false => 4 / (L.cauchyWidth * L.cauchyWidth + normSq (V c.1)) ^ 2 * (V c.1).re * (V c.1).im
            | false, true => 4 / (L.cauchyWidth * L.cauchyWidth + normSq (V c.1)) ^ 2 * (V c.1).re * (V c.1).im
            | false, false => 4 / (L.cauchyWidth * L.cauchyWidth + normSq (V c.1)) ^ 2 * (V c.1).im * (V c.1).im
                + -2 / (L.cauchyWidth * L.cauchyWidth + normSq (V c.1)))
         else 0) := by
    unfold prior2
    cases L.prior with
    | flat => cases c.2 <;> simp [part]
    | halfCauchy =>
      simp only
      rw [part_add, part_ofReal_mul, part_ofReal_mul]
      obtain ⟨s, b⟩ := c
      obtain ⟨s', b'⟩ := c'
      simp only
      by_cases hs : s = s'
      · subst hs
        rw [if_pos rfl, dir_self]
        cases b <;> cases b' <;> simp only [part, unit, mul_re, conj_re, conj_im, one_re, one_im, I_re, I_im, if_true, if_false, Bool.false_eq_true] <;> ring
      · rw [if_neg hs, dir_other _ _ _ hs]
        cases b <;> simp [part]
  have hentry : (match L.prior with
       | .flat => (0 : ℝ)
       | .halfCauchy =>
         if c.1 = c'.1 then
           (match c.2, c'.2 with
            | true, true => 4 / (L.cauchyWidth * L.cauchyWidth + normSq (V c.1)) ^ 2 * (V c.1).re * (V c.1).re
                + -2 / (L.cauchyWidth * L.cauchyWidth + normSq (V c.1))
            | true, false => 4 / (L.cauchyWidth * L.cauchyWidth + normSq (V c.1)) ^ 2 * (V c.1).re * (V c.1).im
            | false, true => 4 / (L.cauchyWidth * L.cauchyWidth + normSq (V c.1)) ^ 2 * (V c.1).re * (V c.1).im
            | false, false => 4 / (L.cauchyWidth * L.cauchyWidth + normSq (V c.1)) ^ 2 * (V c.1).im * (V c.1).im
                + -2 / (L.cauchyWidth * L.cauchyWidth + normSq (V c.1)))
         else 0) = (match L.prior with
       | .flat => 0
       | .halfCauchy =>
         if c.1 = c'.1 then
           let r := ‖V c.1‖
           let f := cauchyFunction r L.cauchyWidth
           let f' := cauchyFunctionDerivative r L.cauchyWidth
           let f'' := cauchyFunctionSecondDerivative r L.cauchyWidth
           let a1 := f'' / (f * r * r)
           let a2 := f' * f' / (f * f * r * r)
           let a3 := f' / (f * r)
           let a4 := f' / (f * r * r * r)
           let a124 := a1 - a2 - a4
           let re := (V c.1).re
           let im := (V c.1).im
           (match c.2, c'.2 with
            | true, true => a124 * re * re + a3
            | true, false => a124 * re * im
            | false, true => a124 * re * im
            | false, false => a124 * im * im + a3)
         else 0) := by
    cases hL : L.prior with
    | flat => rfl
    | halfCauchy =>
      obtain ⟨hg, hV⟩ := hp hL
      simp only [cauchy_a124 hg (norm_ne_zero_iff.2 hV), cauchy_a3 hg (norm_ne_zero_iff.2 hV), Complex.norm_mul_self_eq_normSq]
  unfold deriv2
  rw [part_sub, hprior, hentry, part_add, part_sum]
  simp only [part_add, sigma'_dir L V f _ c' hc']
  obtain ⟨⟨r, e, w⟩, b⟩ := c
  obtain ⟨⟨r', e', w'⟩, b'⟩ := c'
  simp only at hc hc' ⊢
  simp only [ampSum_dir L r' e' w' b' hc'.2.2, accSum_dir L r' e' w' b' hc'.2.2]
  have hI' := hI e w w'
  unfold hessEntry LikData.hess
  have hre : (L.accMatrix e w' w).re = (L.accMatrix e w w').re := by rw [hI']; simp
  have him : (L.accMatrix e w' w).im = -(L.accMatrix e w w').im := by rw [hI']; simp
  clear hprior hentry hp
  by_cases hsame : r = r' ∧ e = e'
  · obtain ⟨rfl, rfl⟩ := hsame
    by_cases hw : w = w'
    · subst hw
      have him0 : (L.accMatrix e w w).im = 0 := by linarith
      clear him hre hI'
      cases b <;> cases b' <;>
        simp only [and_self, if_true, if_false, zero_ne_one, one_ne_zero, Bool.false_eq_true, OfNat.ofNat_ne_zero, OfNat.ofNat_ne_one,
          Prod.mk.injEq, LikData.evtDeriv] <;>
        refine congrArg₂ (· - ·) (congrArg₂ (· + ·) (sum_congr rfl fun x _ => ?_) ?_) rfl
      all_goals simp only [← ofReal_neg, part_ofReal_mul, part_mul_ofReal, ofReal_re, ofReal_im, part, unit, mul_re, mul_im, conj_re, conj_im, one_re, one_im, I_re, I_im, if_true, if_false, Bool.false_eq_true, him0]
      all_goals try ring
    · have hw' : ¬ w' = w := fun h => hw h.symm
      cases b <;> cases b' <;>
        simp only [and_self, if_true, if_false, zero_ne_one, one_ne_zero, Bool.false_eq_true, OfNat.ofNat_ne_zero, OfNat.ofNat_ne_one,
          Prod.mk.injEq, LikData.evtDeriv, hw, hw', and_false] <;>
        refine congrArg₂ (· - ·) (congrArg₂ (· + ·) (sum_congr rfl fun x _ => ?_) ?_) rfl
      all_goals simp only [← ofReal_neg, part_ofReal_mul, part_mul_ofReal, ofReal_re, ofReal_im, part, unit, mul_re, mul_im, conj_re, conj_im, one_re, one_im, I_re, I_im, if_true, if_false, Bool.false_eq_true, him, hre]
      all_goals try ring
  · have hsame' : ¬ (r' = r ∧ e' = e) := fun h => hsame ⟨h.1.symm, h.2.symm⟩
    have hne : ¬ (((r, e, w) : Slot) = (r', e', w')) := by simp only [Prod.mk.injEq]; tauto
    have hne' : ¬ (((r', e', w') : Slot) = (r, e, w)) := fun h => hne h.symm
    cases b <;> cases b' <;>
      simp only [hsame, hsame', hne, hne', if_true, if_false, zero_ne_one, one_ne_zero, Bool.false_eq_true, OfNat.ofNat_ne_zero,
        OfNat.ofNat_ne_one] <;>
      refine congrArg₂ (· - ·) (congrArg₂ (· + ·) (sum_congr rfl fun x _ => ?_) ?_) rfl
    all_goals simp only [← ofReal_neg, part_ofReal_mul, part_mul_ofReal, ofReal_re, ofReal_im, part, unit, mul_re, mul_im, conj_re, conj_im, one_re, one_im, I_re, I_im, if_true, if_false, Bool.false_eq_true, add_zero, mul_zero, zero_re, zero_im, zero_mul]
    all_goals try ring

theorem hess_symm (hI : L.AccHermitian) (V : Amps) (f : ℝ) (s t : Slot) (c : ℕ) (hc : c = 0 ∨ c = 2) :
    L.hess V f s t c = L.hess V f t s c := by
  obtain ⟨r, e, w⟩ := s
  obtain ⟨r', e', w'⟩ := t
  unfold LikData.hess
  simp only
  by_cases hs : r = r' ∧ e = e'
  · obtain ⟨rfl, rfl⟩ := hs
    have hre : (L.accMatrix e w' w).re = (L.accMatrix e w w').re := by rw [hI]; simp
    by_cases hw : w = w'
    · subst hw; rfl
    · have hw' : ¬ w' = w := fun h => hw h.symm
      rcases hc with rfl | rfl <;>
        simp only [and_self, if_true, if_false, zero_ne_one, one_ne_zero, OfNat.ofNat_ne_zero, OfNat.ofNat_ne_one,
          Prod.mk.injEq, hw, hw', and_false] <;>
        refine congrArg₂ (· - ·) (congrArg₂ (· + ·) (sum_congr rfl fun x _ => ?_) ?_) rfl
      all_goals simp only [mul_re, conj_re, conj_im, hre]
      all_goals ring
  · have hs' : ¬ (r' = r ∧ e' = e) := fun h => hs ⟨h.1.symm, h.2.symm⟩
    have hne : ¬ (((r, e, w) : Slot) = (r', e', w')) := by simp only [Prod.mk.injEq]; tauto
    have hne' : ¬ (((r', e', w') : Slot) = (r, e, w)) := fun h => hne h.symm
    rcases hc with rfl | rfl <;>
      simp only [if_true, if_false, zero_ne_one, one_ne_zero, OfNat.ofNat_ne_zero, OfNat.ofNat_ne_one, hs, hs', hne, hne'] <;>
      refine congrArg₂ (· - ·) (congrArg₂ (· + ·) (sum_congr rfl fun x _ => ?_) rfl) rfl
    all_goals ring

theorem hessEntry_symm (hI : L.AccHermitian) (V : Amps) (f : ℝ) (c c' : Comp) : hessEntry L V f c c' = hessEntry L V f c' c := by
  obtain ⟨s, b⟩ := c
  obtain ⟨t, b'⟩ := c'
  cases b <;> cases b'
  · exact hess_symm L hI V f s t 2 (Or.inr rfl)
  · rfl
  · rfl
  · exact hess_symm L hI V f s t 0 (Or.inl rfl)

/-! ### assembly of the matrix -/

theorem setEntry_eq (M : ℕ → ℕ → ℝ) (i j : ℕ) (x : ℝ) (a b : ℕ) :
    LikData.setEntry M i j x a b = if some i = some a ∧ some j = some b then x else M a b := by
  unfold LikData.setEntry
  simp only [Option.some.injEq, eq_comm]

theorem setEntry?_eq (M : ℕ → ℕ → ℝ) (i j : Option ℕ) (x : ℝ) (a b : ℕ) :
    LikData.setEntry? M i j x a b = if i = some a ∧ j = some b then x else M a b := by
  unfold LikData.setEntry?
  split
  · exact setEntry_eq ..
  · rename_i h
    rw [if_neg]
    rintro ⟨rfl, rfl⟩
    exact h _ _ rfl rfl

variable {L}

theorem free_true {c : Comp} (h : Free L.rank L.nW c) : Free L.rank L.nW (c.1, true) := by
  unfold Free at *
  exact ⟨h.1, h.2.1, h.2.2.1, h.2.2.2.1, by simp⟩

theorem hessInner_entry {d : ParData} {comp : List Comp} (hl : Layout L d comp) {F : Slot → Bool}
    (hF : ∀ (k : ℕ) (c : Comp), comp[k]? = some c → LikData.fixedAt d k = F c.1) (V : Amps) (f : ℝ) {s t : Slot}
    (hs : s ∈ slots L.rank L.nW) (ht : t ∈ slots L.rank L.nW) {r1 : ℕ} (hr1 : (d.map s).1 = some r1) (M : ℕ → ℕ → ℝ) (a b : ℕ) :
    L.hessInner d V f s r1 (d.map s).2 M t a b =
      match comp[a]?, comp[b]? with
      | some c, some c' => if c.1 = s ∧ c'.1 = t ∧ F t = false then hessEntry L V f c c' else M a b
      | _, _ => M a b := by
  rw [mem_slots] at hs ht
  obtain ⟨ms1, ms2⟩ := hl.map s hs.1 hs.2.1 hs.2.2
  obtain ⟨mt1, mt2⟩ := hl.map t ht.1 ht.2.1 ht.2.2
  unfold LikData.hessInner
  cases h2 : (d.map t).1 with
  | none =>
    simp only
    split
    · rename_i c c' _ hc'
      rw [if_neg]
      rintro ⟨_, rfl, _⟩
      have := free_true ((hl.free c').1 (List.mem_of_getElem? hc'))
      obtain ⟨k, hk⟩ := List.mem_iff_getElem?.1 ((hl.free _).2 this)
      have := (mt1 k).2 hk
      rw [h2] at this; cases this
    · rfl
  | some r2 =>
    simp only
    have hfix := hF r2 (t, true) ((mt1 r2).1 h2)
    simp only at hfix
    rw [hfix]
    cases hFt : F t with
    | true => simp only [if_true]; split <;> simp
    | false =>
      simp only [Bool.false_eq_true, if_false]
      rw [setEntry?_eq, setEntry?_eq, setEntry?_eq, setEntry_eq]
      have e1 := ms1 a
      have e2 := ms2 a
      have e3 := mt1 b
      have e4 := mt2 b
      rw [hr1] at e1
      rw [h2] at e3
      simp only [e1, e2, e3, e4]
      cases hca : comp[a]? with
      | none => simp
      | some c =>
        cases hcb : comp[b]? with
        | none => simp
        | some c' =>
          obtain ⟨s0, b0⟩ := c
          obtain ⟨t0, b1⟩ := c'
          simp only [Option.some.injEq, Prod.mk.injEq, and_true]
          by_cases hs0 : s0 = s
          · by_cases ht0 : t0 = t
            · subst hs0 ht0
              cases b0 <;> cases b1 <;> simp [hessEntry]
            · simp [ht0]
          · simp [hs0]

theorem hessInner_fold {d : ParData} {comp : List Comp} (hl : Layout L d comp) {F : Slot → Bool}
    (hF : ∀ (k : ℕ) (c : Comp), comp[k]? = some c → LikData.fixedAt d k = F c.1) (V : Amps) (f : ℝ) {s : Slot}
    (hs : s ∈ slots L.rank L.nW) {r1 : ℕ} (hr1 : (d.map s).1 = some r1) (l : List Slot) (hsub : ∀ t ∈ l, t ∈ slots L.rank L.nW)
    (M : ℕ → ℕ → ℝ) (a b : ℕ) :
    l.foldl (L.hessInner d V f s r1 (d.map s).2) M a b =
      match comp[a]?, comp[b]? with
      | some c, some c' => if c.1 = s ∧ c'.1 ∈ l ∧ F c'.1 = false then hessEntry L V f c c' else M a b
      | _, _ => M a b := by
  induction l generalizing M with
  | nil => simp only [List.foldl_nil]; split <;> simp
  | cons t l ih =>
    rw [List.foldl_cons, ih (fun t ht => hsub t (by simp [ht]))]
    rw [hessInner_entry hl hF V f hs (hsub t (by simp)) hr1]
    cases comp[a]? with
    | none => simp
    | some c =>
      cases comp[b]? with
      | none => simp
      | some c' =>
        simp only [List.mem_cons]
        by_cases h1 : c.1 = s
        · by_cases h2 : c'.1 = t
          · cases h3 : F t <;> simp [h1, h2, h3]
          · simp [h1, h2]
        · simp [h1]

/-- what one outer iteration writes. -/
theorem hessOuter_entry {d : ParData} {comp : List Comp} (hl : Layout L d comp) {F : Slot → Bool}
    (hF : ∀ (k : ℕ) (c : Comp), comp[k]? = some c → LikData.fixedAt d k = F c.1) (V : Amps) (f : ℝ) {s : Slot}
    (hs : s ∈ slots L.rank L.nW) (M : ℕ → ℕ → ℝ) (a b : ℕ) :
    L.hessOuter d V f M s a b =
      match comp[a]?, comp[b]? with
      | some c, some c' => if c.1 = s ∧ F s = false ∧ F c'.1 = false then hessEntry L V f c c' else M a b
      | some c, none => if b = comp.length ∧ c.1 = s ∧ F s = false then part (L.flatTerms V f s) c.2 else M a b
      | none, some c => if a = comp.length ∧ c.1 = s ∧ F s = false then part (L.flatTerms V f s) c.2 else M a b
      | none, none => M a b := by
  have hs' := hs
  rw [mem_slots] at hs'
  obtain ⟨ms1, ms2⟩ := hl.map s hs'.1 hs'.2.1 hs'.2.2
  unfold LikData.hessOuter
  have hnone : (d.map s).1 = none → ∀ (k : ℕ) (c : Comp), comp[k]? = some c → c.1 ≠ s := by
    intro h1 k c hc hcs
    have := free_true ((hl.free c).1 (List.mem_of_getElem? hc))
    obtain ⟨k, hk⟩ := List.mem_iff_getElem?.1 ((hl.free _).2 this)
    rw [hcs] at hk
    have := (ms1 k).2 hk
    rw [h1] at this; cases this
  cases h1 : (d.map s).1 with
  | none =>
    simp only
    cases hca : comp[a]? with
    | none =>
      cases hcb : comp[b]? with
      | none => simp
      | some c' => simp [hnone h1 b c' hcb]
    | some c =>
      cases hcb : comp[b]? with
      | none => simp [hnone h1 a c hca]
      | some c' => simp [hnone h1 a c hca]
  | some r1 =>
    simp only
    have hfix := hF r1 (s, true) ((ms1 r1).1 h1)
    simp only at hfix
    rw [hfix]
    cases hFs : F s with
    | true =>
      simp only [if_true]
      cases hca : comp[a]? <;> cases hcb : comp[b]? <;> simp
    | false =>
      simp only [Bool.false_eq_true, if_false]
      rw [setEntry?_eq, setEntry?_eq, setEntry_eq, setEntry_eq, hessInner_fold hl hF V f hs h1 _ (fun t h => h)]
      have hn : d.nmbPars - 1 = comp.length := by rw [hl.nmb]; omega
      rw [hn]
      have e1 := ms1 a
      have e2 := ms2 a
      have e3 := ms1 b
      have e4 := ms2 b
      rw [h1] at e1 e3
      simp only [e1, e2, e3, e4]
      cases hca : comp[a]? with
      | none =>
        cases hcb : comp[b]? with
        | none => simp
        | some c' =>
          obtain ⟨t, b1⟩ := c'
          by_cases ht : t = s
          · by_cases hb : comp.length = a
            · cases b1 <;> simp [ht, hb, part]
            · have hb' : ¬ a = comp.length := fun h => hb h.symm
              cases b1 <;> simp [ht, hb, hb']
          · simp [ht]
      | some c =>
        have hane : ¬ comp.length = a := by
          intro h; subst h; simp at hca
        cases hcb : comp[b]? with
        | none =>
          obtain ⟨t, b1⟩ := c
          by_cases ht : t = s
          · by_cases hb : comp.length = b
            · cases b1 <;> simp [ht, hb, part, hane]
            · have hb' : ¬ b = comp.length := fun h => hb h.symm
              cases b1 <;> simp [ht, hb, hb']
          · simp [ht, hane]
        | some c' =>
          have hbne : ¬ comp.length = b := by
            intro h; subst h; simp at hcb
          have hmem : c'.1 ∈ slots L.rank L.nW := by
            have := (hl.free c').1 (List.mem_of_getElem? hcb)
            rw [mem_slots]; exact ⟨this.1, this.2.1, this.2.2.1⟩
          simp [hane, hbne, hmem]

theorem hessOuter_fold {d : ParData} {comp : List Comp} (hl : Layout L d comp) {F : Slot → Bool}
    (hF : ∀ (k : ℕ) (c : Comp), comp[k]? = some c → LikData.fixedAt d k = F c.1) (V : Amps) (f : ℝ)
    (l : List Slot) (hsub : ∀ t ∈ l, t ∈ slots L.rank L.nW) (M : ℕ → ℕ → ℝ) (a b : ℕ) :
    l.foldl (L.hessOuter d V f) M a b =
      match comp[a]?, comp[b]? with
      | some c, some c' => if c.1 ∈ l ∧ F c.1 = false ∧ F c'.1 = false then hessEntry L V f c c' else M a b
      | some c, none => if b = comp.length ∧ c.1 ∈ l ∧ F c.1 = false then part (L.flatTerms V f c.1) c.2 else M a b
      | none, some c => if a = comp.length ∧ c.1 ∈ l ∧ F c.1 = false then part (L.flatTerms V f c.1) c.2 else M a b
      | none, none => M a b := by
  induction l generalizing M with
  | nil => cases comp[a]? <;> cases comp[b]? <;> simp
  | cons t l ih =>
    rw [List.foldl_cons, ih (fun t ht => hsub t (by simp [ht])), hessOuter_entry hl hF V f (hsub t (by simp))]
    cases comp[a]? with
    | none =>
      cases comp[b]? with
      | none => simp
      | some c' =>
        by_cases h1 : c'.1 = t
        · cases h3 : F t <;> by_cases h4 : a = comp.length <;> simp [h1, h3, h4]
        · simp [h1]
    | some c =>
      cases comp[b]? with
      | none =>
        by_cases h1 : c.1 = t
        · cases h3 : F t <;> by_cases h4 : b = comp.length <;> simp [h1, h3, h4]
        · simp [h1]
      | some c' =>
        by_cases h1 : c.1 = t
        · cases h3 : F t <;> cases h4 : F c'.1 <;> simp [h1, h3, h4]
        · simp [h1]

/-- all entries of the matrix. -/
theorem hessian_entries {d : ParData} {comp : List Comp} (hl : Layout L d comp) {F : Slot → Bool}
    (hF : ∀ (k : ℕ) (c : Comp), comp[k]? = some c → LikData.fixedAt d k = F c.1) (par : ℕ → ℝ) (a b : ℕ) :
    L.hessian d par a b =
      match comp[a]?, comp[b]? with
      | some c, some c' => if F c.1 = false ∧ F c'.1 = false then hessEntry L (L.amps par) (L.flat par) c c' else 0
      | some c, none => if b = comp.length ∧ F c.1 = false then part (L.flatTerms (L.amps par) (L.flat par) c.1) c.2 else 0
      | none, some c => if a = comp.length ∧ F c.1 = false then part (L.flatTerms (L.amps par) (L.flat par) c.1) c.2 else 0
      | none, none => if a = comp.length ∧ b = comp.length then L.hessianFlat (L.amps par) (L.flat par) else 0 := by
  have hn : d.nmbPars - 1 = comp.length := by rw [hl.nmb]; omega
  have hmem : ∀ (k : ℕ) (c : Comp), comp[k]? = some c → c.1 ∈ slots L.rank L.nW := by
    intro k c hc
    have := (hl.free c).1 (List.mem_of_getElem? hc)
    rw [mem_slots]; exact ⟨this.1, this.2.1, this.2.2.1⟩
  unfold LikData.hessian
  rw [setEntry_eq, hessOuter_fold hl hF _ _ _ (fun t h => h), hn]
  simp only [Option.some.injEq]
  have hsome : ∀ (k : ℕ) (c : Comp), comp[k]? = some c → ¬ comp.length = k := by
    intro k c hc h; subst h; simp at hc
  cases hca : comp[a]? with
  | none =>
    cases hcb : comp[b]? with
    | none => simp only [eq_comm]; rfl
    | some c' => simp only [hsome b c' hcb, hmem b c' hcb, and_false, if_false, true_and]; rfl
  | some c =>
    cases hcb : comp[b]? with
    | none => simp only [hsome a c hca, hmem a c hca, false_and, if_false, true_and]; rfl
    | some c' => simp only [hsome a c hca, hmem a c hca, false_and, if_false, true_and]; rfl

end Rpwa.Lik

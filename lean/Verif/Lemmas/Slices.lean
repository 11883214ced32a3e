import Verif.Props.Hessian
/-! # Derivatives of the likelihood along a straight line in parameter space -/
namespace Rpwa.Lik

open Finset Complex

variable (L : LikData)

/-- the parameters on a line through `par`. -/
def onLine (par e : ℕ → ℝ) (t : ℝ) : ℕ → ℝ := fun i => par i + t * e i

theorem onLine_zero (par e : ℕ → ℝ) : onLine par e 0 = par := by funext i; simp [onLine]

/-- the amplitudes move along a straight line as well. -/
theorem copyFrom_line {d : ParData} {comp : List Comp} (hl : Layout L d comp) (par e : ℕ → ℝ) (t : ℝ) :
    (∀ s, (copyFromParArray L.rank L.nW (onLine par e t)).1 s =
      (copyFromParArray L.rank L.nW par).1 s + (t : ℂ) * (copyFromParArray L.rank L.nW e).1 s) ∧
    (copyFromParArray L.rank L.nW (onLine par e t)).2 = (copyFromParArray L.rank L.nW par).2 + t * (copyFromParArray L.rank L.nW e).2 := by
  refine ⟨?_, by simp only [hl.fromFlat]; rfl⟩
  intro s
  have hp : ∀ b, part ((copyFromParArray L.rank L.nW (onLine par e t)).1 s) b =
      part ((copyFromParArray L.rank L.nW par).1 s) b + t * part ((copyFromParArray L.rank L.nW e).1 s) b := by
    intro b
    by_cases hf : Free L.rank L.nW (s, b)
    · obtain ⟨i, hi⟩ := List.getElem?_of_mem ((hl.free _).2 hf)
      rw [hl.fromPar _ i _ hi, hl.fromPar _ i _ hi, hl.fromPar _ i _ hi]; rfl
    · rw [hl.fromZero _ _ _ hf, hl.fromZero _ _ _ hf, hl.fromZero _ _ _ hf]; simp
  have h1 := hp true
  have h2 := hp false
  simp only [part, if_true, Bool.false_eq_true, if_false] at h1 h2
  apply Complex.ext
  · rw [h1, add_re, re_ofReal_mul]
  · rw [h2, add_im, im_ofReal_mul]

theorem curve_of_line {d : ParData} {comp : List Comp} (hl : Layout L d comp) (par e : ℕ → ℝ) (t : ℝ) :
    Curve (fun x => (copyFromParArray L.rank L.nW (onLine par e x)).1) (copyFromParArray L.rank L.nW e).1 t ∧
    HasDerivAt (fun x => (copyFromParArray L.rank L.nW (onLine par e x)).2) (copyFromParArray L.rank L.nW e).2 t := by
  have h1 : HasDerivAt (fun x : ℝ => x) 1 t := hasDerivAt_id _
  constructor
  · intro s
    have heq : (fun x => (copyFromParArray L.rank L.nW (onLine par e x)).1 s) =
        fun x : ℝ => (copyFromParArray L.rank L.nW par).1 s + (x : ℂ) * (copyFromParArray L.rank L.nW e).1 s := by
      funext x; exact (copyFrom_line L hl par e x).1 s
    simp only [heq]
    refine (((hasDerivAt_ofReal h1).mul_const _).const_add _).congr_deriv ?_
    simp
  · have heq : (fun x => (copyFromParArray L.rank L.nW (onLine par e x)).2) =
        fun x => (copyFromParArray L.rank L.nW par).2 + x * (copyFromParArray L.rank L.nW e).2 := by
      funext x; exact (copyFrom_line L hl par e x).2
    simp only [heq]
    refine ((h1.mul_const _).const_add _).congr_deriv ?_
    simp

/-- direction of a parameter in the space of amplitudes. -/
noncomputable def dirAt (comp : List Comp) (k : ℕ) : Amps :=
  match comp[k]? with
  | some c => dir c
  | none => fun _ => 0

/-- and of the flat amplitude. -/
def flatAt (comp : List Comp) (k : ℕ) : ℝ := if k = comp.length then 1 else 0

theorem copyFrom_sum {d : ParData} {comp : List Comp} (hl : Layout L d comp) (e : ℕ → ℝ) :
    (∀ s, (copyFromParArray L.rank L.nW e).1 s = ∑ k ∈ range d.nmbPars, (e k : ℂ) * dirAt comp k s) ∧
    (copyFromParArray L.rank L.nW e).2 = ∑ k ∈ range d.nmbPars, e k * flatAt comp k := by
  constructor
  · intro s
    have hp : ∀ b, part ((copyFromParArray L.rank L.nW e).1 s) b = ∑ k ∈ range d.nmbPars, e k * part (dirAt comp k s) b := by
      intro b
      have hd : ∀ k, part (dirAt comp k s) b = if comp[k]? = some (s, b) then 1 else 0 := by
        intro k
        unfold dirAt
        cases hk : comp[k]? with
        | none => cases b <;> simp [part]
        | some c => cases b <;> simp [part, dir]
      simp only [hd]
      by_cases hf : Free L.rank L.nW (s, b)
      · obtain ⟨i, hi⟩ := List.getElem?_of_mem ((hl.free _).2 hf)
        rw [hl.fromPar _ i _ hi, sum_eq_single i]
        · rw [hi]; simp
        · intro k _ hne
          rw [if_neg, mul_zero]
          intro hk
          obtain ⟨l1, e1⟩ := List.getElem?_eq_some_iff.1 hi
          obtain ⟨l2, e2⟩ := List.getElem?_eq_some_iff.1 hk
          exact hne ((hl.nodup.getElem_inj_iff).1 (e2.trans e1.symm))
        · intro hn
          have := (List.getElem?_eq_some_iff.1 hi).1
          rw [mem_range, hl.nmb] at hn
          omega
      · rw [hl.fromZero _ _ _ hf]
        symm
        refine sum_eq_zero fun k _ => ?_
        rw [if_neg, mul_zero]
        intro hk
        exact hf ((hl.free _).1 (List.mem_of_getElem? hk))
    have h1 := hp true
    have h2 := hp false
    simp only [part, if_true, Bool.false_eq_true, if_false] at h1 h2
    apply Complex.ext
    · rw [h1, re_sum]; simp
    · rw [h2, im_sum]; simp
  · rw [hl.fromFlat, hl.nmb, sum_range_succ]
    rw [sum_eq_zero, zero_add]
    · simp [flatAt]
    · intro k hk
      have := mem_range.1 hk
      simp only [flatAt]
      rw [if_neg (by omega), mul_zero]

/-- a function of a direction that is linear. -/
def Lin (Φ : Amps → ℝ → ℝ) : Prop := ∀ (E D : Amps) (f g c : ℝ), Φ (fun s => E s + (c : ℂ) * D s) (f + c * g) = Φ E f + c * Φ D g

theorem Lin.zero {Φ : Amps → ℝ → ℝ} (h : Lin Φ) : Φ (fun _ => 0) 0 = 0 := by
  have := h (fun _ => 0) (fun _ => 0) 0 0 1
  simp only [mul_zero, add_zero, one_mul] at this
  linarith only [this]

theorem Lin.sum {Φ : Amps → ℝ → ℝ} (h : Lin Φ) (n : ℕ) (e : ℕ → ℝ) (D : ℕ → Amps) (g : ℕ → ℝ) :
    Φ (fun s => ∑ k ∈ range n, (e k : ℂ) * D k s) (∑ k ∈ range n, e k * g k) = ∑ k ∈ range n, e k * Φ (D k) (g k) := by
  induction n with
  | zero => simpa using h.zero
  | succ n ih =>
    simp only [sum_range_succ]
    rw [h (fun s => ∑ k ∈ range n, (e k : ℂ) * D k s) (D n), ih]

theorem Lin.line {Φ : Amps → ℝ → ℝ} (h : Lin Φ) {d : ParData} {comp : List Comp} (hl : Layout L d comp) (e : ℕ → ℝ) :
    Φ (copyFromParArray L.rank L.nW e).1 (copyFromParArray L.rank L.nW e).2 = ∑ k ∈ range d.nmbPars, e k * Φ (dirAt comp k) (flatAt comp k) := by
  obtain ⟨h1, h2⟩ := copyFrom_sum L hl e
  rw [← h.sum, h2]
  congr 1
  funext s; exact h1 s

theorem curve_at {d : ParData} {comp : List Comp} (hl : Layout L d comp) (par : ℕ → ℝ) {k : ℕ} (hk : k < d.nmbPars) :
    Curve (fun x => (copyFromParArray L.rank L.nW (Function.update par k x)).1) (dirAt comp k) (par k) ∧
    HasDerivAt (fun x => (copyFromParArray L.rank L.nW (Function.update par k x)).2) (flatAt comp k) (par k) := by
  rw [hl.nmb] at hk
  by_cases hkf : k = comp.length
  · subst hkf
    obtain ⟨_, h2, h3⟩ := curve_of_flat L hl par
    have e1 : dirAt comp comp.length = fun _ => 0 := by
      unfold dirAt; rw [List.getElem?_eq_none (le_refl _)]
    have e2 : flatAt comp comp.length = 1 := if_pos rfl
    rw [e1, e2]
    exact ⟨h2, h3⟩
  · have hk2 : comp[k]? = some comp[k] := List.getElem?_eq_getElem (by omega)
    have e1 : dirAt comp k = dir comp[k] := by unfold dirAt; rw [hk2]
    have e2 : flatAt comp k = 0 := if_neg hkf
    rw [e1, e2]
    exact ⟨curve_of_par L hl par hk2, flat_of_par L hl par hk2⟩

/-! ### the derivatives of C24 and C25 are linear in the direction -/

theorem ampSum_lin (E D : Amps) (c : ℝ) (ev r e : ℕ) :
    L.ampSum (fun s => E s + (c : ℂ) * D s) ev r e = L.ampSum E ev r e + (c : ℂ) * L.ampSum D ev r e := by
  unfold LikData.ampSum
  rw [mul_sum, ← sum_add_distrib]
  exact sum_congr rfl fun w _ => by ring

theorem sigma'_lin (V : Amps) (f0 : ℝ) (ev : ℕ) : Lin fun E f => sigma' L V E f0 f ev := by
  intro E D f g c
  simp only [sigma', ampSum_lin]
  have : ∀ r e, 2 * (L.ampSum V ev r e * (starRingEnd ℂ) (L.ampSum E ev r e + (c : ℂ) * L.ampSum D ev r e)).re =
      2 * (L.ampSum V ev r e * (starRingEnd ℂ) (L.ampSum E ev r e)).re + c * (2 * (L.ampSum V ev r e * (starRingEnd ℂ) (L.ampSum D ev r e)).re) := by
    intro r e
    simp only [map_add, map_mul, conj_ofReal]
    rw [show L.ampSum V ev r e * ((starRingEnd ℂ) (L.ampSum E ev r e) + (c : ℂ) * (starRingEnd ℂ) (L.ampSum D ev r e)) =
      L.ampSum V ev r e * (starRingEnd ℂ) (L.ampSum E ev r e) + (c : ℂ) * (L.ampSum V ev r e * (starRingEnd ℂ) (L.ampSum D ev r e)) by ring,
      add_re, re_ofReal_mul]
    ring
  simp only [this, sum_add_distrib, ← mul_sum]
  ring

theorem eval'_lin (G : Amps) (g0 : ℝ) : Lin fun E f =>
    (∑ r ∈ range L.rank, ∑ e ∈ range 2, ∑ w ∈ range (L.nW e), ((starRingEnd ℂ) (E (r, e, w)) * G (r, e, w)).re) + f * g0 := by
  intro E D f g c
  have : ∀ s, ((starRingEnd ℂ) (E s + (c : ℂ) * D s) * G s).re = ((starRingEnd ℂ) (E s) * G s).re + c * ((starRingEnd ℂ) (D s) * G s).re := by
    intro s
    simp only [map_add, map_mul, conj_ofReal]
    rw [add_mul, mul_assoc, add_re, re_ofReal_mul]
  simp only [this, sum_add_distrib, ← mul_sum]
  ring

theorem prior2_lin (V E D : Amps) (c : ℝ) (s : Slot) :
    prior2 L V (fun s => E s + (c : ℂ) * D s) s = prior2 L V E s + (c : ℂ) * prior2 L V D s := by
  unfold prior2
  cases L.prior with
  | flat => simp
  | halfCauchy =>
    simp only
    have : (V s * (starRingEnd ℂ) (E s + (c : ℂ) * D s)).re = (V s * (starRingEnd ℂ) (E s)).re + c * (V s * (starRingEnd ℂ) (D s)).re := by
      simp only [map_add, map_mul, conj_ofReal]
      rw [show V s * ((starRingEnd ℂ) (E s) + (c : ℂ) * (starRingEnd ℂ) (D s)) =
        V s * (starRingEnd ℂ) (E s) + (c : ℂ) * (V s * (starRingEnd ℂ) (D s)) by ring, add_re, re_ofReal_mul]
    rw [this]
    push_cast
    ring

theorem deriv2_lin (V : Amps) (f0 : ℝ) (s : Slot) (b : Bool) : Lin fun E f => part (deriv2 L V E f0 f s) b := by
  intro E D f g c
  have : deriv2 L V (fun s => E s + (c : ℂ) * D s) f0 (f + c * g) s = deriv2 L V E f0 f s + (c : ℂ) * deriv2 L V D f0 g s := by
    unfold deriv2
    have h1 := fun ev => sigma'_lin L V f0 ev E D f g c
    simp only at h1
    simp only [h1, ampSum_lin, prior2_lin]
    rw [mul_sub, mul_add, mul_sum]
    have h2 : ∀ ev, (((2 * (sigma' L V E f0 f ev + c * sigma' L V D f0 g ev) / L.sigma V f0 ev ^ 2 : ℝ) : ℂ) * L.evtDeriv V ev s
          + -((2 / L.sigma V f0 ev : ℝ) : ℂ) * ((L.ampSum E ev s.1 s.2.1 + (c : ℂ) * L.ampSum D ev s.1 s.2.1) *
            (starRingEnd ℂ) (L.decayAmps s.2.1 ev s.2.2))) =
        (((2 * sigma' L V E f0 f ev / L.sigma V f0 ev ^ 2 : ℝ) : ℂ) * L.evtDeriv V ev s
          + -((2 / L.sigma V f0 ev : ℝ) : ℂ) * (L.ampSum E ev s.1 s.2.1 * (starRingEnd ℂ) (L.decayAmps s.2.1 ev s.2.2))) +
        (c : ℂ) * (((2 * sigma' L V D f0 g ev / L.sigma V f0 ev ^ 2 : ℝ) : ℂ) * L.evtDeriv V ev s
          + -((2 / L.sigma V f0 ev : ℝ) : ℂ) * (L.ampSum D ev s.1 s.2.1 * (starRingEnd ℂ) (L.decayAmps s.2.1 ev s.2.2))) := by
      intro ev
      push_cast
      ring
    have h3 : ∑ j ∈ range (L.nW s.2.1), (E (s.1, s.2.1, j) + (c : ℂ) * D (s.1, s.2.1, j)) * (starRingEnd ℂ) (L.accMatrix s.2.1 s.2.2 j) =
        (∑ j ∈ range (L.nW s.2.1), E (s.1, s.2.1, j) * (starRingEnd ℂ) (L.accMatrix s.2.1 s.2.2 j)) +
        (c : ℂ) * ∑ j ∈ range (L.nW s.2.1), D (s.1, s.2.1, j) * (starRingEnd ℂ) (L.accMatrix s.2.1 s.2.2 j) := by
      rw [mul_sum, ← sum_add_distrib]
      exact sum_congr rfl fun w _ => by ring
    simp only [h2, sum_add_distrib, h3, ← mul_sum]
    ring
  simp only [this, part_add, part_ofReal_mul]

theorem flat2_lin (V : Amps) (f0 : ℝ) : Lin fun E f =>
    (∑ ev ∈ range L.nmbEvents, (2 * sigma' L V E f0 f ev / L.sigma V f0 ev ^ 2 * f0 + -(2 / L.sigma V f0 ev) * f)) + f * (2 * L.nmbEvt) * L.totAcc := by
  intro E D f g c
  have h1 := fun ev => sigma'_lin L V f0 ev E D f g c
  simp only at h1
  simp only [h1]
  have h2 : ∀ ev, 2 * (sigma' L V E f0 f ev + c * sigma' L V D f0 g ev) / L.sigma V f0 ev ^ 2 * f0 + -(2 / L.sigma V f0 ev) * (f + c * g) =
      (2 * sigma' L V E f0 f ev / L.sigma V f0 ev ^ 2 * f0 + -(2 / L.sigma V f0 ev) * f) +
      c * (2 * sigma' L V D f0 g ev / L.sigma V f0 ev ^ 2 * f0 + -(2 / L.sigma V f0 ev) * g) := by
    intro ev; ring
  simp only [h2, sum_add_distrib, ← mul_sum]
  ring

end Rpwa.Lik

import Verif.Lemmas.Slices
import Verif.Spec.Slices
/-! # C106: the likelihood along a straight line: first and second derivative, and the parabola along an eigenvector -/
namespace Rpwa.Lik

open Finset Complex

variable (L : LikData) (wl : WaveList) (d : ParData) (m : ℝ)

/-- **C106, first derivative.** The derivative of a slice is the gradient times the direction. -/
theorem slice_first (hm : L.Matches wl d m) (hI : L.AccHermitian) (par e out : ℕ → ℝ) (hdef : L.DefinedAt par)
    (hprior : ∀ k < d.nmbPars, L.PriorDefinedAt d par k) :
    HasDerivAt (slice L.doEval par e) (∑ k ∈ range d.nmbPars, e k * L.gradient d par out k) 0 := by
  obtain ⟨comp, hl⟩ := layout_of_matches L hm
  have hp : ∀ E : Amps, L.prior = .halfCauchy → (∀ s : Slot, E s ≠ 0 → Free L.rank L.nW (s, true) ∨ Free L.rank L.nW (s, false)) →
      L.cauchyWidth ≠ 0 ∧ ∀ r < L.rank, ∀ e < 2, ∀ w < L.nW e, E (r, e, w) ≠ 0 → L.amps par (r, e, w) ≠ 0 := by
    intro E h0 hE
    refine ⟨hdef.width h0, fun r hr e' he w hw hne => ?_⟩
    have hmap := hl.map (r, e', w) hr he hw
    rcases hE _ hne with hf | hf
    · obtain ⟨i, hi⟩ := List.getElem?_of_mem ((hl.free _).2 hf)
      have hlt := (List.getElem?_eq_some_iff.1 hi).1
      exact hprior i (by rw [hl.nmb]; omega) h0 (r, e', w) hr he hw (.inl ((hmap.1 i).2 hi))
    · obtain ⟨i, hi⟩ := List.getElem?_of_mem ((hl.free _).2 hf)
      have hlt := (List.getElem?_eq_some_iff.1 hi).1
      exact hprior i (by rw [hl.nmb]; omega) h0 (r, e', w) hr he hw (.inr ((hmap.2 i).2 hi))
  have hlin := eval'_lin L (L.derivatives (copyFromParArray L.rank L.nW par).1 (copyFromParArray L.rank L.nW par).2)
    (L.derivativeFlat (copyFromParArray L.rank L.nW par).1 (copyFromParArray L.rank L.nW par).2)
  have hline := hlin.line L hl e
  obtain ⟨h1, h2⟩ := curve_of_line L hl par e 0
  have hz : onLine par e 0 = par := onLine_zero par e
  have key : HasDerivAt (fun x => L.doEval (onLine par e x)) (∑ k ∈ range d.nmbPars, e k * L.gradient d par out k) 0 := by
    unfold LikData.doEval
    refine (eval_deriv L hI h1 h2 (by simp only [hz]; exact hdef.intensity) (fun h0 => by
      simp only [hz]
      refine hp _ h0 fun s hs => ?_
      by_contra hc
      push Not at hc
      exact hs (Complex.ext (hl.fromZero e s true hc.1) (hl.fromZero e s false hc.2)))).congr_deriv ?_
    simp only [hz]
    refine hline.trans (sum_congr rfl fun k hk => ?_)
    have hk := mem_range.1 hk
    congr 1
    have hg := gradient_is_derivative L wl d m hm hI par out hdef k hk (hprior k hk)
    obtain ⟨c1, c2⟩ := curve_at L hl par hk
    have hself : Function.update par k (par k) = par := Function.update_eq_self k par
    have hd := eval_deriv L hI c1 c2 (by simp only [hself]; exact hdef.intensity) (fun h0 => by
      simp only [hself]
      refine hp _ h0 fun s hs => ?_
      unfold dirAt at hs
      cases hck : comp[k]? with
      | none => rw [hck] at hs; exact absurd rfl hs
      | some c =>
        rw [hck] at hs
        have hfree := (hl.free c).1 (List.mem_of_getElem? hck)
        have : c = (s, true) ∨ c = (s, false) := by
          by_contra hcon
          push Not at hcon
          exact hs (by apply Complex.ext <;> simp [dir, hcon.1, hcon.2])
        rcases this with h | h
        · exact .inl (h ▸ hfree)
        · exact .inr (h ▸ hfree))
    have hd' := hd.unique hg
    simp only [hself] at hd'
    exact hd'
  exact key.sub_const _

/-- the component of the gradient along a line. -/
theorem gradient_line (hm : L.Matches wl d m) (hI : L.AccHermitian) (par e out : ℕ → ℝ) (hdef : L.DefinedAt par) (k : ℕ) (hk : k < d.nmbPars)
    (hfk : LikData.fixedAt d k = false) (hprior : L.PriorDefinedAt d par k) (hfree : InFree d e) :
    HasDerivAt (fun x => L.gradient d (onLine par e x) out k) (∑ l ∈ range d.nmbPars, e l * L.hessian d par k l) 0 := by
  obtain ⟨comp, hl⟩ := layout_of_matches L hm
  have hz : onLine par e 0 = par := onLine_zero par e
  obtain ⟨h1, h2⟩ := curve_of_line L hl par e 0
  have hpart : ∀ {g : ℝ → ℂ} {g' : ℂ} {t : ℝ} (b : Bool), HasDerivAt g g' t → HasDerivAt (fun x => part (g x) b) (part g' b) t := by
    intro g g' t b h
    unfold part
    cases b
    · simpa using hasDerivAt_im h
    · simpa using hasDerivAt_re h
  have hcoord : ∀ l < d.nmbPars, LikData.fixedAt d l = false → ∀ Φ : Amps → ℝ → ℝ,
      HasDerivAt (fun x => L.gradient d (Function.update par l x) out k) (Φ (dirAt comp l) (flatAt comp l)) (par l) →
      Φ (dirAt comp l) (flatAt comp l) = L.hessian d par k l := fun l hl' hfl Φ h =>
    h.unique (hessian_is_second_derivative L wl d m hm hI par out hdef k l hk hl' hfk hfl hprior)
  have hsum : ∀ Φ : Amps → ℝ → ℝ, Lin Φ →
      (∀ l < d.nmbPars, HasDerivAt (fun x => L.gradient d (Function.update par l x) out k) (Φ (dirAt comp l) (flatAt comp l)) (par l)) →
      Φ (copyFromParArray L.rank L.nW e).1 (copyFromParArray L.rank L.nW e).2 = ∑ l ∈ range d.nmbPars, e l * L.hessian d par k l := by
    intro Φ hΦ h
    rw [hΦ.line L hl e]
    refine sum_congr rfl fun l hl' => ?_
    have hl' := mem_range.1 hl'
    cases hfl : LikData.fixedAt d l with
    | true => rw [hfree l hl' hfl]; simp
    | false => rw [hcoord l hl' hfl Φ (h l hl')]
  have hself : ∀ l, Function.update par l (par l) = par := fun l => Function.update_eq_self l par
  have hk' := hk
  rw [hl.nmb] at hk'
  unfold LikData.gradient at hsum ⊢
  by_cases hkf : k = comp.length
  · subst hkf
    simp only [hl.toFlat] at hsum ⊢
    refine (derivativeFlat_deriv L h1 h2 (by simp only [hz]; exact hdef.intensity)).congr_deriv ?_
    simp only [hz]
    refine hsum _ (flat2_lin L _ _) fun l hl' => ?_
    obtain ⟨c1, c2⟩ := curve_at L hl par hl'
    have := derivativeFlat_deriv L c1 c2 (by simp only [hself]; exact hdef.intensity)
    simp only [hself] at this
    exact this
  · have hk2 : comp[k]? = some comp[k] := List.getElem?_eq_getElem (by omega)
    simp only [hl.toPar _ _ _ k _ hk2] at hsum ⊢
    refine (hpart _ (derivatives_deriv L h1 h2 (by simp only [hz]; exact hdef.intensity) hdef.width comp[k].1)).congr_deriv ?_
    simp only [hz]
    refine hsum _ (deriv2_lin L _ _ _ _) fun l hl' => ?_
    obtain ⟨c1, c2⟩ := curve_at L hl par hl'
    have := hpart comp[k].2 (derivatives_deriv L c1 c2 (by simp only [hself]; exact hdef.intensity) hdef.width comp[k].1)
    simp only [hself] at this
    exact this

/-- **C106, second derivative.** The second derivative of a slice at the start is the Hessian, twice times the direction. -/
theorem slice_second (hm : L.Matches wl d m) (hI : L.AccHermitian) (par e : ℕ → ℝ) (hdef : L.DefinedAt par)
    (hprior : ∀ k < d.nmbPars, L.PriorDefinedAt d par k) (hfree : InFree d e) :
    HasDerivAt (deriv (slice L.doEval par e)) (∑ k ∈ range d.nmbPars, ∑ l ∈ range d.nmbPars, e k * L.hessian d par k l * e l) 0 := by
  obtain ⟨comp, hl⟩ := layout_of_matches L hm
  have hz : onLine par e 0 = par := onLine_zero par e
  obtain ⟨c1, c2⟩ := curve_of_line L hl par e 0
  have hmain : HasDerivAt (fun x => ∑ k ∈ range d.nmbPars, e k * L.gradient d (onLine par e x) (fun _ => 0) k)
      (∑ k ∈ range d.nmbPars, ∑ l ∈ range d.nmbPars, e k * L.hessian d par k l * e l) 0 := by
    refine HasDerivAt.fun_sum fun k hk => ?_
    have hk := mem_range.1 hk
    cases hfk : LikData.fixedAt d k with
    | true =>
      simp only [hfree k hk hfk, zero_mul, sum_const_zero]
      exact hasDerivAt_const _ _
    | false =>
      refine ((gradient_line L wl d m hm hI par e (fun _ => 0) hdef k hk hfk (hprior k hk) hfree).const_mul (e k)).congr_deriv ?_
      rw [mul_sum]
      exact sum_congr rfl fun l _ => by ring
  refine hmain.congr_of_eventuallyEq ?_
  have h1 : ∀ᶠ x in nhds (0 : ℝ), ∀ ev ∈ range L.nmbEvents, L.sigma (L.amps (onLine par e x)) (L.flat (onLine par e x)) ev ≠ 0 := by
    rw [Filter.eventually_all_finset]
    intro ev hev
    refine (sigma_deriv L c1 c2 ev).continuousAt.eventually_ne ?_
    rw [hz]
    exact hdef.intensity ev (mem_range.1 hev)
  have h2 : ∀ᶠ x in nhds (0 : ℝ), ∀ s ∈ (slots L.rank L.nW).toFinset, L.amps par s ≠ 0 → L.amps (onLine par e x) s ≠ 0 := by
    rw [Filter.eventually_all_finset]
    intro s _
    by_cases h0 : L.amps par s = 0
    · exact Filter.Eventually.of_forall fun x h => absurd h0 h
    · have : ContinuousAt (fun x => L.amps (onLine par e x) s) 0 := (c1 s).continuousAt
      have hev := this.eventually_ne (y := 0) (by simp only [hz]; exact h0)
      exact hev.mono fun x hx _ => hx
  filter_upwards [h1, h2] with x hx1 hx2
  have hs := slice_first L wl d m hm hI (onLine par e x) e (fun _ => 0) ⟨fun ev hev => hx1 ev (mem_range.2 hev), hdef.width⟩ (by
    intro k hk hp s h1 h2 h3 h4
    exact hx2 s (by rw [List.mem_toFinset, mem_slots]; exact ⟨h1, h2, h3⟩) (hprior k hk hp s h1 h2 h3 h4))
  have hsh : HasDerivAt (fun y => slice L.doEval (onLine par e x) e (y - x) + (L.doEval (onLine par e x) - L.doEval par))
      (∑ k ∈ range d.nmbPars, e k * L.gradient d (onLine par e x) (fun _ => 0) k) x := by
    refine HasDerivAt.add_const _ ?_
    refine HasDerivAt.comp_sub_const x x ?_
    rw [sub_self]; exact hs
  have heq : (fun y => slice L.doEval (onLine par e x) e (y - x) + (L.doEval (onLine par e x) - L.doEval par)) = slice L.doEval par e := by
    funext y
    unfold slice
    have : (fun i => onLine par e x i + (y - x) * e i) = fun i => par i + y * e i := by
      funext i; unfold onLine; ring
    rw [this]; ring
  rw [heq] at hsh
  exact hsh.deriv

/-- **C106, eigenvectors.** If a covariance matrix is the inverse of the Hessian on the free parameters, a direction is an eigenvector of length 1 and
its eigenvalue is not 0, then the Hessian in this direction is the inverse of the eigenvalue. -/
theorem hessian_of_eigenvector (H C : ℕ → ℕ → ℝ) (hC : InverseOnFree d H C) (e : ℕ → ℝ) (lam : ℝ) (hlam : lam ≠ 0)
    (he : IsEigen d.nmbPars C e lam) (hfree : InFree d e) (hnorm : norm2 d e = 1) :
    (∑ k ∈ range d.nmbPars, ∑ l ∈ range d.nmbPars, e k * H k l * e l) = 1 / lam := by
  have hsum : ∀ g : ℕ → ℝ, (∀ j < d.nmbPars, LikData.fixedAt d j = true → g j = 0) →
      ∑ j ∈ range d.nmbPars, g j = ∑ j ∈ (range d.nmbPars).filter (fun j => LikData.fixedAt d j = false), g j := by
    intro g hg
    rw [sum_filter]
    refine sum_congr rfl fun j hj => ?_
    cases hf : LikData.fixedAt d j with
    | true => rw [hg j (mem_range.1 hj) hf]; simp
    | false => simp
  have hHe : ∀ i < d.nmbPars, LikData.fixedAt d i = false → lam * (∑ l ∈ range d.nmbPars, H i l * e l) = e i := by
    intro i hi hfi
    rw [hsum (fun l => H i l * e l) (fun j hj hf => by rw [hfree j hj hf, mul_zero]), mul_sum]
    have h1 : ∀ l ∈ (range d.nmbPars).filter (fun j => LikData.fixedAt d j = false), lam * (H i l * e l) =
        ∑ j ∈ range d.nmbPars, H i l * C l j * e j := by
      intro l hl
      have hl := mem_range.1 (mem_filter.1 hl).1
      rw [show lam * (H i l * e l) = H i l * (lam * e l) by ring, ← he l hl, mul_sum]
      exact sum_congr rfl fun j _ => by ring
    rw [sum_congr rfl h1, sum_comm]
    have h2 : ∀ j ∈ range d.nmbPars, ∑ l ∈ (range d.nmbPars).filter (fun j => LikData.fixedAt d j = false), H i l * C l j * e j =
        if i = j then e j else 0 := by
      intro j hj
      have hj := mem_range.1 hj
      rw [← sum_mul]
      cases hfj : LikData.fixedAt d j with
      | true => rw [hfree j hj hfj]; simp
      | false =>
        rw [hC i j hi hj hfi hfj]
        split <;> simp
    rw [sum_congr rfl h2, sum_ite_eq, if_pos (mem_range.2 hi)]
  have h3 : lam * (∑ k ∈ range d.nmbPars, ∑ l ∈ range d.nmbPars, e k * H k l * e l) = 1 := by
    rw [mul_sum, ← hnorm]
    unfold norm2
    refine sum_congr rfl fun k hk => ?_
    have hk := mem_range.1 hk
    have : ∑ l ∈ range d.nmbPars, e k * H k l * e l = e k * ∑ l ∈ range d.nmbPars, H k l * e l := by
      rw [mul_sum]; exact sum_congr rfl fun l _ => by ring
    rw [this]
    cases hf : LikData.fixedAt d k with
    | true => rw [hfree k hk hf]; simp
    | false => rw [show lam * (e k * ∑ l ∈ range d.nmbPars, H k l * e l) = e k * (lam * ∑ l ∈ range d.nmbPars, H k l * e l) by ring, hHe k hk hf]
  rw [eq_div_iff hlam, mul_comm]
  exact h3

/-- the parabola that is drawn. -/
theorem parabola_derivs (lam x : ℝ) : HasDerivAt (fun x => 0.5 / lam * x * x) (x / lam) x := by
  have h : HasDerivAt (fun x : ℝ => x) 1 x := hasDerivAt_id _
  refine ((h.const_mul (0.5 / lam)).mul h).congr_deriv ?_
  ring

/-- **C106, the parabola.** Where the gradient vanishes, the slice along an eigenvector of the covariance matrix and the parabola agree in value, first
and second derivative: their difference has no part of second or lower order. -/
theorem parabola_osculates (hm : L.Matches wl d m) (hI : L.AccHermitian) (par e : ℕ → ℝ) (hdef : L.DefinedAt par)
    (hprior : ∀ k < d.nmbPars, L.PriorDefinedAt d par k) (hfree : InFree d e) (out : ℕ → ℝ)
    (hgrad : ∀ k < d.nmbPars, LikData.fixedAt d k = false → L.gradient d par out k = 0) (C : ℕ → ℕ → ℝ)
    (hC : InverseOnFree d (L.hessian d par) C) (lam : ℝ) (hlam : lam ≠ 0) (he : IsEigen d.nmbPars C e lam) (hnorm : norm2 d e = 1) :
    slice L.doEval par e 0 = 0 ∧ HasDerivAt (slice L.doEval par e) 0 0 ∧ HasDerivAt (deriv (slice L.doEval par e)) (1 / lam) 0 ∧
    (0.5 / lam * 0 * 0 : ℝ) = 0 ∧ HasDerivAt (fun x => 0.5 / lam * x * x) 0 0 ∧ HasDerivAt (deriv fun x => 0.5 / lam * x * x) (1 / lam) 0 := by
  refine ⟨by unfold slice; simp, ?_, ?_, by simp, ?_, ?_⟩
  · refine (slice_first L wl d m hm hI par e out hdef hprior).congr_deriv ?_
    refine sum_eq_zero fun k hk => ?_
    have hk := mem_range.1 hk
    cases hf : LikData.fixedAt d k with
    | true => rw [hfree k hk hf, zero_mul]
    | false => rw [hgrad k hk hf, mul_zero]
  · refine (slice_second L wl d m hm hI par e hdef hprior hfree).congr_deriv ?_
    exact hessian_of_eigenvector d _ C hC e lam hlam he hfree hnorm
  · exact (parabola_derivs lam 0).congr_deriv (by simp)
  · have : (deriv fun x : ℝ => 0.5 / lam * x * x) = fun x => x / lam := by
      funext x; exact (parabola_derivs lam x).deriv
    rw [this]
    have h : HasDerivAt (fun x : ℝ => x) 1 0 := hasDerivAt_id _
    exact h.div_const lam

end Rpwa.Lik

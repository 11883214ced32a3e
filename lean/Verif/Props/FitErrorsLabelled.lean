import Verif.Props.FitErrors
import Verif.Props.Coherence
import Mathlib.Analysis.SpecialFunctions.Sqrt
/-!
# C31, continued: errors of the coherence and of coherent sums of waves -/
namespace Rpwa.Fit

open Finset

variable {rx : Name → Name → Bool} {r : FitResult} {labels : List Label}

theorem sum_getD {M : Type} [AddCommMonoid M] (l : List ℕ) (hl : l.Nodup) (H : ℕ → M) :
    ∑ i ∈ range l.length, H (l.getD i 0) = ∑ x ∈ l.toFinset, H x := by
  rw [List.sum_toFinset H hl, sum_range, ← List.sum_ofFn]
  congr 1
  refine List.ext_getElem (by simp) fun n h1 h2 => ?_
  simp at h1 h2 ⊢

theorem sum_getD_ite (l : List ℕ) (hl : l.Nodup) (p : ℕ) (g : ℕ → ℝ) :
    (∑ i ∈ range l.length, if l.getD i 0 = p then g (l.getD i 0) else 0) = if p ∈ l then g p else 0 := by
  rw [sum_getD l hl (fun x => if x = p then g x else 0), sum_ite_eq']
  simp

theorem Labelled.withAmps (hL : Labelled r labels) (V : ℕ → ℂ) : Labelled (r.withAmps V) labels :=
  ⟨hL.names, hL.count, hL.nodup, hL.flat, hL.good, hL.waves, hL.separate⟩

/-- derivative of the amplitude of a wave and rank. -/
theorem hasDerivAt_ampOf (hL : Labelled r labels) (p b : ℕ) (W : Wave) (k : ℕ) :
    HasDerivAt (fun t : ℝ => ampOf (r.withAmps (Function.update r.prodAmps p (r.prodAmps p + t * unit b))) labels W k)
      (if labels[p]? = some ⟨W, k⟩ then unit b else 0) 0 := by
  unfold ampOf
  by_cases hm : (⟨W, k⟩ : Label) ∈ labels
  · simp only [if_pos hm]
    have hi : labels[labels.idxOf ⟨W, k⟩]? = some ⟨W, k⟩ := by
      rw [List.getElem?_eq_getElem (List.idxOf_lt_length_iff.2 hm)]; simp
    refine (hasDerivAt_update r.prodAmps p b (labels.idxOf ⟨W, k⟩)).congr_deriv ?_
    by_cases h : labels.idxOf ⟨W, k⟩ = p
    · rw [if_pos h, if_pos (h ▸ hi)]
    · rw [if_neg h, if_neg (fun e => h (hL.getElem?_unique hi e))]
  · simp only [if_neg hm]
    rw [if_neg (fun e => hm (List.mem_of_getElem? e))]
    exact hasDerivAt_const _ _

theorem ampOf_at_zero (p b : ℕ) (W : Wave) (k : ℕ) :
    ampOf (r.withAmps (Function.update r.prodAmps p (r.prodAmps p + ((0 : ℝ) : ℂ) * unit b))) labels W k = ampOf r labels W k := by
  simp [FitResult.withAmps]

/-- derivative of `N Σ_k V_Ak V_Bk^*` with respect to a component of amplitude `p` with label `l`. -/
theorem hasDerivAt_rho (hL : Labelled r labels) (K : ℕ) (hK : ∀ l ∈ labels, l.rank < K) {p : ℕ} {l : Label} (hp : labels[p]? = some l) (b : ℕ) (A B : Wave) :
    HasDerivAt (fun t : ℝ => (r.normNmbEvents : ℂ) * ∑ k ∈ range K,
        ampOf (r.withAmps (Function.update r.prodAmps p (r.prodAmps p + t * unit b))) labels A k *
        (starRingEnd ℂ) (ampOf (r.withAmps (Function.update r.prodAmps p (r.prodAmps p + t * unit b))) labels B k))
      ((r.normNmbEvents : ℂ) * ((if l.wave = A then unit b * (starRingEnd ℂ) (ampOf r labels B l.rank) else 0) +
        (if l.wave = B then ampOf r labels A l.rank * (starRingEnd ℂ) (unit b) else 0))) 0 := by
  refine HasDerivAt.const_mul (r.normNmbEvents : ℂ) ?_
  have h := HasDerivAt.fun_sum (u := range K) fun k _ => (hasDerivAt_ampOf hL p b A k).mul (hasDerivAt_conj (hasDerivAt_ampOf hL p b B k))
  refine h.congr_deriv ?_
  simp only [ampOf_at_zero]
  rw [sum_add_distrib]
  have hl : ∀ (W : Wave) (k : ℕ), labels[p]? = some ⟨W, k⟩ ↔ l.wave = W ∧ l.rank = k := by
    intro W k
    rw [hp, Option.some.injEq]
    constructor
    · rintro rfl; exact ⟨rfl, rfl⟩
    · rintro ⟨rfl, rfl⟩; rfl
  have hr := hK l (List.mem_of_getElem? hp)
  congr 1
  · rw [sum_eq_single_of_mem l.rank (mem_range.2 hr)]
    · by_cases h : l.wave = A
      · rw [if_pos ((hl _ _).2 ⟨h, rfl⟩), if_pos h]
      · rw [if_neg (fun e => h ((hl _ _).1 e).1), if_neg h, zero_mul]
    · intro k _ hk
      rw [if_neg (fun e => hk ((hl _ _).1 e).2.symm), zero_mul]
  · rw [sum_eq_single_of_mem l.rank (mem_range.2 hr)]
    · by_cases h : l.wave = B
      · rw [if_pos ((hl _ _).2 ⟨h, rfl⟩), if_pos h]
      · rw [if_neg (fun e => h ((hl _ _).1 e).1), if_neg h, map_zero, mul_zero]
    · intro k _ hk
      rw [if_neg (fun e => hk ((hl _ _).1 e).2.symm), map_zero, mul_zero]

/-! ### coherence -/

/-- derivative of `sqrt (|ρ|² / (a b))`. -/
theorem hasDerivAt_coherence {ρ α β : ℝ → ℂ} {ρ' α' β' : ℂ} (hρ : HasDerivAt ρ ρ' 0) (hα : HasDerivAt α α' 0) (hβ : HasDerivAt β β' 0)
    (hs : Real.sqrt (Complex.normSq (ρ 0) / ((α 0).re * (β 0).re)) ≠ 0) :
    HasDerivAt (fun t => Real.sqrt (Complex.normSq (ρ t) / ((α t).re * (β t).re)))
      (((ρ 0).re * ρ'.re + (ρ 0).im * ρ'.im - Complex.normSq (ρ 0) / (α 0).re * (α'.re / 2) - Complex.normSq (ρ 0) / (β 0).re * (β'.re / 2)) *
        (1 / (Real.sqrt (Complex.normSq (ρ 0) / ((α 0).re * (β 0).re)) * (α 0).re * (β 0).re))) 0 := by
  have hq : Complex.normSq (ρ 0) / ((α 0).re * (β 0).re) ≠ 0 := fun e => hs (by rw [e, Real.sqrt_zero])
  have ha : (α 0).re ≠ 0 := fun e => hq (by rw [e]; simp)
  have hb : (β 0).re ≠ 0 := fun e => hq (by rw [e]; simp)
  have h1 : HasDerivAt (fun t => (ρ t).re) ρ'.re 0 := hasDerivAt_compPart 0 hρ
  have h2 : HasDerivAt (fun t => (ρ t).im) ρ'.im 0 := hasDerivAt_compPart 1 hρ
  have h3 : HasDerivAt (fun t => (α t).re) α'.re 0 := hasDerivAt_compPart 0 hα
  have h4 : HasDerivAt (fun t => (β t).re) β'.re 0 := hasDerivAt_compPart 0 hβ
  have h5 : HasDerivAt (fun t => Complex.normSq (ρ t)) (2 * ((ρ 0).re * ρ'.re + (ρ 0).im * ρ'.im)) 0 := by
    refine (((h1.mul h1).add (h2.mul h2)).congr_of_eventuallyEq (Filter.Eventually.of_forall fun t => ?_)).congr_deriv ?_
    · exact Complex.normSq_apply _
    · ring
  have h6 := (h5.div (h3.mul h4) (mul_ne_zero ha hb)).sqrt hq
  refine h6.congr_deriv ?_
  simp only [Pi.mul_apply, Pi.div_apply]
  field_simp
  ring

/-- the error reported for the coherence is the propagated error divided by the number of events the amplitudes are
normalized to: it is right only for amplitudes normalized to one event. -/
theorem coherenceErr_propagates_partial (hrx : LiteralRx rx) (hL : Labelled r labels) {i j : ℕ} (hi : i < r.waveNames.length)
    (hj : j < r.waveNames.length) (hv : r.covMatrixValid = true) {x : ℝ} (hx : r.coherence rx i j = .ok x) (hx0 : x ≠ 0) :
    ∃ f : (ℕ → ℂ) → ℝ, (∀ V, (r.withAmps V).coherence rx i j = .ok (f V)) ∧
    ∃ D, IsGradient f r.prodAmps r.nmbProdAmps D ∧
      r.coherenceErr rx i j = .ok (Real.sqrt (propagate r D D) / r.normNmbEvents) := by
  obtain ⟨K, hK⟩ := exists_rank_bound labels
  obtain ⟨A, hA⟩ := exists_isWave hL hi
  obtain ⟨B, hB⟩ := exists_isWave hL hj
  have hcoh := coherence_eq hrx hL K hK hA hB
  have hrefl : A.refl = B.refl := by
    by_contra h
    rw [if_neg h, hx] at hcoh
    exact hx0 (by rw [Outcome.ok.inj hcoh]; simp)
  set N := r.normNmbEvents with hN
  let RHO : (ℕ → ℂ) → Wave → Wave → ℂ := fun V A B =>
    (N : ℂ) * ∑ k ∈ range K, ampOf (r.withAmps V) labels A k * (starRingEnd ℂ) (ampOf (r.withAmps V) labels B k)
  have hform : ∀ V, (r.withAmps V).coherence rx i j = .ok (Real.sqrt (Complex.normSq (RHO V A B) / ((RHO V A A).re * (RHO V B B).re))) := by
    intro V
    have := coherence_eq hrx (hL.withAmps V) K hK (i := i) (j := j) (A := A) (B := B) hA hB
    rw [if_pos hrefl] at this
    rw [this]
    simp only [RHO, diag_re]
    rfl
  have hxval : Real.sqrt (Complex.normSq (RHO r.prodAmps A B) / ((RHO r.prodAmps A A).re * (RHO r.prodAmps B B).re)) = x :=
    Outcome.ok.inj ((hform r.prodAmps).symm.trans hx)
  set ρ := RHO r.prodAmps A B with hρ
  set α := RHO r.prodAmps A A with hα
  set β := RHO r.prodAmps B B with hβ
  have hα0 : α.re ≠ 0 := by
    intro e; rw [e] at hxval; apply hx0; rw [← hxval]; simp
  have hN0 : (N : ℝ) ≠ 0 := by
    intro e
    apply hα0
    simp only [hα, RHO]
    rw [show (N : ℂ) = ((N : ℝ) : ℂ) by simp, e]; simp
  -- spin-density elements
  have s1 : r.spinDens rx i j = .ok ρ := by
    rw [spinDensityMatrixElem_eq_partial hrx hL K hK hA hB, if_pos hrefl]; rfl
  have s2 : r.spinDens rx i i = .ok α := by
    rw [spinDensityMatrixElem_eq_partial hrx hL K hK hA hA, if_pos rfl]; rfl
  have s3 : r.spinDens rx j j = .ok β := by
    rw [spinDensityMatrixElem_eq_partial hrx hL K hK hB hB, if_pos rfl]; rfl
  obtain ⟨lA, hlA, hlA'⟩ := hA.2
  obtain ⟨lB, hlB, hlB'⟩ := hB.2
  have i1 := hL.indices hrx hlA (by rw [hlA']; exact hA.1)
  have i2 := hL.indices hrx hlB (by rw [hlB']; exact hB.1)
  rw [hlA'] at i1
  rw [hlB'] at i2
  set as := idxs labels A with has
  set bs := idxs labels B with hbs
  have hne : ∀ l ∈ labels, idxs labels l.wave ≠ [] := by
    intro l hl h
    obtain ⟨n, hn, hnl⟩ := List.getElem_of_mem hl
    have : n ∈ idxs labels l.wave := mem_idxs.2 ⟨l.rank, by rw [List.getElem?_eq_getElem hn, hnl]⟩
    rw [h] at this; simp at this
  have hasn : as ≠ [] := by have := hne lA hlA; rwa [hlA'] at this
  have hbsn : bs ≠ [] := by have := hne lB hlB; rwa [hlB'] at this
  have hidx : ∀ k ∈ as ++ bs, k < r.nmbProdAmps := by
    intro k hk
    rcases List.mem_append.1 hk with hk | hk
    · exact indices_lt i1 k hk
    · exact indices_lt i2 k hk
  -- the Jacobian of the code
  let GA : ℕ → ℕ → ℝ := fun k b =>
    (if b = 0 then ρ.re * (r.partner k bs).re - ρ.im * (r.partner k bs).im - (Complex.normSq ρ / α.re) * (r.prodAmps k).re
      else ρ.re * (r.partner k bs).im + ρ.im * (r.partner k bs).re - (Complex.normSq ρ / α.re) * (r.prodAmps k).im) * (1 / (x * α.re * β.re))
  let GB : ℕ → ℕ → ℝ := fun k b =>
    (if b = 0 then ρ.re * (r.partner k as).re + ρ.im * (r.partner k as).im - (Complex.normSq ρ / β.re) * (r.prodAmps k).re
      else ρ.re * (r.partner k as).im - ρ.im * (r.partner k as).re - (Complex.normSq ρ / β.re) * (r.prodAmps k).im) * (1 / (x * α.re * β.re))
  let J : ℕ → ℝ := fun col => if col < 2 * as.length then GA (as.getD (col / 2) 0) (col % 2)
    else GB (bs.getD ((col - 2 * as.length) / 2) 0) ((col - 2 * as.length) % 2)
  have hcode : r.coherenceErr rx i j = .ok (Real.sqrt (FitResult.sandwich (r.prodAmpCov (as ++ bs)).nCols (r.prodAmpCov (as ++ bs)).entry J J)) := by
    unfold FitResult.coherenceErr
    rw [i1, i2, s1, s2, s3]
    simp only [hv, Bool.not_true, Bool.false_eq_true, if_false, Outcome.ok_bind]
    rw [if_neg (by simp [hasn, hbsn]), if_neg (by rw [hxval]; exact hx0)]
    refine congrArg Outcome.ok ?_
    have hJ : (fun col : ℕ => (if col < 2 * as.length then
            if col % 2 = 0 then ρ.re * (r.partner (as.getD (col / 2) 0) bs).re - ρ.im * (r.partner (as.getD (col / 2) 0) bs).im -
              (Complex.normSq ρ / α.re) * (r.prodAmps (as.getD (col / 2) 0)).re
            else ρ.re * (r.partner (as.getD (col / 2) 0) bs).im + ρ.im * (r.partner (as.getD (col / 2) 0) bs).re -
              (Complex.normSq ρ / α.re) * (r.prodAmps (as.getD (col / 2) 0)).im
          else
            if (col - 2 * as.length) % 2 = 0 then
              ρ.re * (r.partner (bs.getD ((col - 2 * as.length) / 2) 0) as).re + ρ.im * (r.partner (bs.getD ((col - 2 * as.length) / 2) 0) as).im -
              (Complex.normSq ρ / β.re) * (r.prodAmps (bs.getD ((col - 2 * as.length) / 2) 0)).re
            else ρ.re * (r.partner (bs.getD ((col - 2 * as.length) / 2) 0) as).im - ρ.im * (r.partner (bs.getD ((col - 2 * as.length) / 2) 0) as).re -
              (Complex.normSq ρ / β.re) * (r.prodAmps (bs.getD ((col - 2 * as.length) / 2) 0)).im) * (1 / (x * α.re * β.re))) = J := by
      funext col
      simp only [J, GA, GB]
      by_cases h : col < 2 * as.length
      · simp only [if_pos h]
      · simp only [if_neg h]
    rw [← hJ, ← hxval]
  -- the gradient
  let D : ℕ → ℕ → ℝ := fun p b => (N : ℝ) * collect (as ++ bs) J p b
  refine ⟨_, hform, D, ?_, ?_⟩
  · intro p hp b hb
    rw [hL.count] at hp
    set l := labels[p] with hl
    have hpl : labels[p]? = some l := List.getElem?_eq_getElem hp
    have d1 := hasDerivAt_rho hL K hK hpl b A B
    have d2 := hasDerivAt_rho hL K hK hpl b A A
    have d3 := hasDerivAt_rho hL K hK hpl b B B
    have hz : ∀ A B, (N : ℂ) * ∑ k ∈ range K, ampOf (r.withAmps (Function.update r.prodAmps p (r.prodAmps p + ((0 : ℝ) : ℂ) * unit b))) labels A k *
        (starRingEnd ℂ) (ampOf (r.withAmps (Function.update r.prodAmps p (r.prodAmps p + ((0 : ℝ) : ℂ) * unit b))) labels B k) = RHO r.prodAmps A B := by
      intro A B; simp only [ampOf_at_zero]; rfl
    have d := hasDerivAt_coherence d1 d2 d3 (by simp only [← hN, hz]; rw [← hρ, ← hα, ← hβ, hxval]; exact hx0)
    simp only [← hN, hz] at d
    rw [← hρ, ← hα, ← hβ, hxval] at d
    refine d.congr_deriv ?_
    -- collect
    have hcol : collect (as ++ bs) J p b = (if p ∈ as then GA p b else 0) + (if p ∈ bs then GB p b else 0) := by
      unfold collect
      rw [List.length_append, sum_range_add]
      congr 1
      · rw [← sum_getD_ite as (nodup_idxs A) p (fun k => GA k b)]
        refine sum_congr rfl fun n hn => ?_
        have hn := mem_range.1 hn
        rw [List.getD_append _ _ _ _ hn]
        simp only [J]
        rw [if_pos (show 2 * n + b < 2 * as.length by omega), show (2 * n + b) / 2 = n by omega, show (2 * n + b) % 2 = b by omega]
      · rw [← sum_getD_ite bs (nodup_idxs B) p (fun k => GB k b)]
        refine sum_congr rfl fun n hn => ?_
        rw [List.getD_append_right _ _ _ _ (by omega), Nat.add_sub_cancel_left]
        simp only [J]
        rw [if_neg (show ¬ 2 * (as.length + n) + b < 2 * as.length by omega), show (2 * (as.length + n) + b - 2 * as.length) / 2 = n by omega,
          show (2 * (as.length + n) + b - 2 * as.length) % 2 = b by omega]
    simp only [D, hcol]
    have hma : p ∈ as ↔ l.wave = A := by
      rw [has, mem_idxs]
      constructor
      · rintro ⟨k, hk⟩; rw [hpl, Option.some.injEq] at hk; rw [hk]
      · rintro rfl; exact ⟨l.rank, hpl⟩
    have hmb : p ∈ bs ↔ l.wave = B := by
      rw [hbs, mem_idxs]
      constructor
      · rintro ⟨k, hk⟩; rw [hpl, Option.some.injEq] at hk; rw [hk]
      · rintro rfl; exact ⟨l.rank, hpl⟩
    have hpa : l.wave = A → r.partner p bs = ampOf r labels B l.rank := fun e => hL.partner_eq hpl B (by rw [e]; exact hrefl)
    have hpb : l.wave = B → r.partner p as = ampOf r labels A l.rank := fun e => hL.partner_eq hpl A (by rw [e]; exact hrefl.symm)
    have hself : r.prodAmps p = ampOf r labels l.wave l.rank := (hL.ampOf_eq hpl).symm
    by_cases ea : l.wave = A <;> by_cases eb : l.wave = B
    · simp only [if_pos (hma.2 ea), if_pos (hmb.2 eb), if_pos ea, if_pos eb, GA, GB, hpa ea, hpb eb, hself]
      rw [ea] at eb ⊢
      subst eb
      interval_cases b <;> simp [unit] <;> ring
    · simp only [if_pos (hma.2 ea), if_neg (fun e => eb (hmb.1 e)), if_pos ea, if_neg eb, GA, hpa ea, hself]
      rw [ea]
      interval_cases b <;> simp [unit] <;> ring
    · simp only [if_neg (fun e => ea (hma.1 e)), if_pos (hmb.2 eb), if_neg ea, if_pos eb, GB, hpb eb, hself]
      rw [eb]
      interval_cases b <;> simp [unit] <;> ring
    · simp only [if_neg (fun e => ea (hma.1 e)), if_neg (fun e => eb (hmb.1 e)), if_neg ea, if_neg eb]
      simp
  · rw [hcode, sandwich_eq r hv _ hidx, propagate_smul]
    refine congrArg Outcome.ok ?_
    have hNn : (0 : ℝ) ≤ N := Nat.cast_nonneg _
    rw [Real.sqrt_mul (mul_nonneg hNn hNn), Real.sqrt_mul_self hNn, mul_div_cancel_left₀ _ hN0]

/-! ### coherent sums -/

/-- what `fill` establishes about waves and integrals: wave names are different, every amplitude is mapped to its wave, only
the flat wave is called `flat…`, its integral is 1. -/
structure IntegralsOk (r : FitResult) (labels : List Label) : Prop where
  nodup : r.waveNames.Nodup
  map : ∀ p l, labels[p]? = some l → ∃ w, r.normIntIndexMap p = some w ∧ r.waveNames[w]? = some l.wave.text
  noflat : ∀ l ∈ labels, "flat".toList <:+: l.text → l.wave = .flat
  flatOne : ∀ w, r.waveNames[w]? = some Wave.flat.text → r.normIntegral.entry w w = 1
  herm : ∀ i j, r.normIntegral.entry j i = (starRingEnd ℂ) (r.normIntegral.entry i j)

theorem foldlM_sum {α : Type} (l : List α) (g : ℂ → α → Outcome ℂ) (h : α → ℂ) (hg : ∀ s, ∀ x ∈ l, g s x = .ok (s + h x)) (s : ℂ) :
    l.foldlM g s = .ok (s + (l.map h).sum) := by
  induction l generalizing s with
  | nil => simp
  | cons x l ih =>
    rw [List.foldlM_cons, hg s x List.mem_cons_self]
    simp only [Outcome.ok_bind, List.map_cons, List.sum_cons]
    rw [ih (fun s y hy => hg s y (List.mem_cons_of_mem _ hy)), add_assoc]

theorem mapM_ok {α β : Type} (l : List α) (g : α → Outcome β) (h : α → β) (hg : ∀ x ∈ l, g x = .ok (h x)) : l.mapM g = .ok (l.map h) := by
  induction l with
  | nil => rfl
  | cons x l ih =>
    rw [List.mapM_cons, hg x List.mem_cons_self, ih fun y hy => hg y (List.mem_cons_of_mem _ hy)]
    rfl

theorem foldlM_concat (ws : List ℕ) (g : ℕ → Outcome (List ℕ)) (h : ℕ → List ℕ) (hg : ∀ w ∈ ws, g w = .ok (h w)) (acc : List ℕ) :
    ws.foldlM (fun acc w => do
      let l ← g w
      Outcome.ok (acc ++ l)) acc = .ok (acc ++ ws.flatMap h) := by
  induction ws generalizing acc with
  | nil => simp
  | cons w ws ih =>
    rw [List.foldlM_cons, hg w List.mem_cons_self]
    simp only [Outcome.ok_bind, List.flatMap_cons]
    rw [ih fun y hy => hg y (List.mem_cons_of_mem _ hy), List.append_assoc]

theorem sum_map_flatMap (ws : List ℕ) (g : ℕ → List ℕ) (h : ℕ → ℂ) : ((ws.flatMap g).map h).sum = (ws.map fun w => ((g w).map h).sum).sum := by
  induction ws with
  | nil => simp
  | cons w ws ih => simp [ih]

/-- the error of the intensity of all waves matching a pattern. -/
theorem intensityErrOf_propagates (hrx : LiteralRx rx) (hL : Labelled r labels) (hI : IntegralsOk r labels)
    (hpos : ∀ i, 0 ≤ (r.normIntegral.entry i i).re) (hv : r.covMatrixValid = true) (pat : Name) :
    ∃ f : (ℕ → ℂ) → ℝ, (∀ V, (r.withAmps V).intensityOf rx pat = .ok (f V)) ∧
    ∃ D, IsGradient f r.prodAmps r.nmbProdAmps D ∧ r.intensityErrOf rx pat = .ok (Real.sqrt (propagate r D D)) := by
  match hws : r.waveIndicesMatching rx pat with
  | [] =>
    refine ⟨fun _ => 0, fun V => ?_, fun _ _ => 0, fun p _ b _ => hasDerivAt_const _ _, ?_⟩
    · have : (r.withAmps V).waveIndicesMatching rx pat = [] := hws
      unfold FitResult.intensityOf
      rw [this]
    · unfold FitResult.intensityErrOf
      rw [hws]
      simp [hv, propagate]
  | [w] =>
    have hw : w < r.waveNames.length := by
      have : w ∈ r.waveIndicesMatching rx pat := by rw [hws]; simp
      exact List.mem_range.1 (List.mem_filter.1 this).1
    obtain ⟨z, hz, _⟩ := spinDensityMatrixElem_hermitian hrx hL hw hw
    obtain ⟨f, hf, D, hD, he⟩ := intensityErr_propagates hz hv (hpos w)
    refine ⟨f, fun V => ?_, D, hD, ?_⟩
    · have : (r.withAmps V).waveIndicesMatching rx pat = [w] := hws
      unfold FitResult.intensityOf
      rw [this]
      exact hf V
    · unfold FitResult.intensityErrOf
      rw [hws]
      simp only [hv, Bool.not_true, Bool.false_eq_true, if_false]
      exact he
  | w1 :: w2 :: wt =>
    set ws := w1 :: w2 :: wt with hwsdef
    obtain ⟨K, hK⟩ := exists_rank_bound labels
    have hmemlt : ∀ w ∈ ws, w < r.waveNames.length := fun w hw => by
      rw [← hws] at hw; exact List.mem_range.1 (List.mem_filter.1 hw).1
    have hwsnd : ws.Nodup := by rw [← hws]; exact List.nodup_range.filter _
    choose! W hW using fun i (hi : i < r.waveNames.length) => exists_isWave hL hi
    -- waves at different positions are different
    have hWinj : ∀ i < r.waveNames.length, ∀ j < r.waveNames.length, W i = W j → i = j := by
      intro i hi j hj h
      have h1 := (hW i hi).1
      have h2 := (hW j hj).1
      rw [h] at h1
      obtain ⟨_, e1⟩ := List.getElem?_eq_some_iff.1 h1
      obtain ⟨_, e2⟩ := List.getElem?_eq_some_iff.1 h2
      exact (List.Nodup.getElem_inj_iff hI.nodup).1 (e1.trans e2.symm)
    set S := (range r.waveNames.length).filter (fun i => rx pat (r.waveNames.getD i []) = true) with hS
    have hSws : S = ws.toFinset := by
      rw [← hws]
      ext i
      simp only [hS, mem_filter, mem_range, List.mem_toFinset, FitResult.waveIndicesMatching, List.mem_filter, List.mem_range]
      refine and_congr_right fun hi => ?_
      rw [List.getElem?_eq_getElem hi, List.getD_eq_getElem _ _ hi]
      simp
    have hSlt : ∀ i ∈ S, i < r.waveNames.length := fun i hi => mem_range.1 (mem_filter.1 hi).1
    set N := r.normNmbEvents with hN
    let RHO : (ℕ → ℂ) → Wave → Wave → ℂ := fun V A B =>
      (N : ℂ) * ∑ k ∈ range K, ampOf (r.withAmps V) labels A k * (starRingEnd ℂ) (ampOf (r.withAmps V) labels B k)
    let I : ℕ → ℕ → ℂ := r.normIntegral.entry
    let f : (ℕ → ℂ) → ℝ := fun V => (∑ i ∈ S, ∑ j ∈ S, (if (W i).refl = (W j).refl then RHO V (W i) (W j) else 0) * I i j).re
    have hf : ∀ V, (r.withAmps V).intensityOf rx pat = .ok (f V) := by
      intro V
      obtain ⟨rho, hrho, he⟩ := intensityOf_eq hrx (hL.withAmps V) (show ∀ i j, (r.withAmps V).normIntegral.entry j i = _ from hI.herm) pat
      rw [he]
      refine congrArg Outcome.ok ?_
      refine congrArg Complex.re (sum_congr rfl fun i hi => sum_congr rfl fun j hj => ?_)
      have e := (hrho i (hSlt i hi) j (hSlt j hj)).symm.trans
        (spinDensityMatrixElem_eq_partial hrx (hL.withAmps V) K hK (i := i) (j := j) (hW i (hSlt i hi)) (hW j (hSlt j hj)))
      rw [Outcome.ok.inj e]
      rfl
    -- indices of all amplitudes
    set idx := ws.flatMap (fun w => idxs labels (W w)) with hidxdef
    have hidxs : ∀ w < r.waveNames.length, r.prodAmpIndicesForWave rx w = .ok (idxs labels (W w)) := by
      intro w hw
      obtain ⟨l, hl, hl'⟩ := (hW w hw).2
      have := hL.indices hrx hl (by rw [hl']; exact (hW w hw).1)
      rwa [hl'] at this
    have hcode1 : r.prodAmpIndicesForWaves rx ws = .ok idx := by
      have := foldlM_concat ws (r.prodAmpIndicesForWave rx) (fun w => idxs labels (W w)) (fun w hw => hidxs w (hmemlt w hw)) []
      rw [List.nil_append] at this
      exact this
    have hmemidx : ∀ p, p ∈ idx ↔ ∃ l c, labels[p]? = some l ∧ c ∈ S ∧ l.wave = W c := by
      intro p
      rw [hidxdef, List.mem_flatMap, hSws]
      constructor
      · rintro ⟨w, hw, hp⟩
        obtain ⟨k, hk⟩ := mem_idxs.1 hp
        exact ⟨_, w, hk, List.mem_toFinset.2 hw, rfl⟩
      · rintro ⟨l, c, h1, h2, h3⟩
        exact ⟨c, List.mem_toFinset.1 h2, mem_idxs.2 ⟨l.rank, by rw [← h3]; exact h1⟩⟩
    have hidxnd : idx.Nodup := by
      rw [hidxdef, List.nodup_flatMap]
      refine ⟨fun w _ => nodup_idxs _, ?_⟩
      refine hwsnd.imp_of_mem fun {a b} ha hb hab => ?_
      intro p hp1 hp2
      obtain ⟨k1, h1⟩ := mem_idxs.1 hp1
      obtain ⟨k2, h2⟩ := mem_idxs.1 hp2
      rw [h1, Option.some.injEq] at h2
      exact hab (hWinj a (hmemlt a ha) b (hmemlt b hb) (Label.mk.inj h2).1)
    have hidxlt : ∀ k ∈ idx, k < r.nmbProdAmps := by
      intro k hk
      obtain ⟨l, _, hl, _⟩ := (hmemidx k).1 hk
      rw [hL.count]; exact (List.getElem?_eq_some_iff.1 hl).1
    -- the norm of an amplitude
    let nrm : Wave → ℕ → ℕ → ℂ := fun C k0 c => ∑ i ∈ S, if (W i).refl = C.refl then ampOf r labels (W i) k0 * I i c else 0
    have hnorm : ∀ p l c, labels[p]? = some l → c ∈ S → l.wave = W c → r.ampNorm idx p = .ok (nrm l.wave l.rank c) := by
      intro p l c hpl hc hlc
      have hreflOf : ∀ q m, labels[q]? = some m → r.prodAmpName q = .ok m.text ∧ getReflectivity (waveNameOf m.text) = .ok m.wave.refl := by
        intro q m hq
        refine ⟨?_, ?_⟩
        · unfold FitResult.prodAmpName; rw [hL.name hq]
        · rw [waveNameOf_text]; exact reflectivity_wave _ (hL.good m (List.mem_of_getElem? hq))
      unfold FitResult.ampNorm
      rw [(hreflOf p l hpl).1]
      simp only [Outcome.ok_bind, (hreflOf p l hpl).2]
      -- one summand
      let term : ℕ → ℂ := fun q => match labels[q]? with
        | some m => if m.wave.refl = l.wave.refl ∧ m.rank = l.rank then r.prodAmps q * I (r.waveNames.idxOf m.wave.text) c else 0
        | none => 0
      have hpos_of : ∀ (m : Label) (w : ℕ), r.waveNames[w]? = some m.wave.text → r.waveNames.idxOf m.wave.text = w := by
        intro m w h
        obtain ⟨h1, h2⟩ := List.getElem?_eq_some_iff.1 h
        rw [← h2, hI.nodup.idxOf_getElem]
      have hcpos : r.waveNames.idxOf l.wave.text = c := by
        have := (hW c (hSlt c hc)).1
        rw [← hlc] at this
        exact hpos_of l c this
      have hz : ∀ q m, labels[q]? = some m → m.wave.refl = l.wave.refl → r.normIntegralForProdAmp q p = .ok (I (r.waveNames.idxOf m.wave.text) c) := by
        intro q m hq hr
        unfold FitResult.normIntegralForProdAmp
        rw [(hreflOf q m hq).1, (hreflOf p l hpl).1]
        simp only [Outcome.ok_bind]
        have hfl : ∀ m ∈ labels, hasSub "flat".toList m.text = decide (m.wave = .flat) := by
          intro m hm
          rw [Bool.eq_iff_iff, hasSub_iff, decide_eq_true_eq]
          refine ⟨hI.noflat m hm, fun h => ?_⟩
          have := text_infix m
          rw [h] at this
          exact this
        rw [hfl m (List.mem_of_getElem? hq), hfl l (List.mem_of_getElem? hpl)]
        by_cases hlf : l.wave = .flat
        · have hmf : m.wave = .flat := by
            rw [hlf] at hr; exact refl_eq_zero.1 hr
          rw [if_pos (by simp [hlf, hmf])]
          refine congrArg Outcome.ok ?_
          have : r.waveNames.idxOf m.wave.text = c := by rw [hmf, ← hlf]; exact hcpos
          rw [this]
          have hcf := (hW c (hSlt c hc)).1
          rw [← hlc, hlf] at hcf
          exact (hI.flatOne c hcf).symm
        · have hmf : m.wave ≠ .flat := by
            intro h
            rw [h] at hr
            exact hlf (refl_eq_zero.1 hr.symm)
          rw [if_neg (by simp [hlf]), if_neg (by simp [hlf, hmf])]
          obtain ⟨wq, h1, h2⟩ := hI.map q m hq
          obtain ⟨wp, h3, h4⟩ := hI.map p l hpl
          rw [h1, h3]
          refine congrArg Outcome.ok ?_
          rw [hpos_of m wq h2, ← hcpos, hpos_of l wp h4]
      have hterm : ∀ (s : ℂ), ∀ q ∈ idx, (do
            let nj ← r.prodAmpName q
            let e ← getReflectivity (waveNameOf nj)
            if e ≠ l.wave.refl then Outcome.ok s
            else if r.rankOfProdAmp q ≠ r.rankOfProdAmp p then Outcome.ok s
            else do
              let z ← r.normIntegralForProdAmp q p
              Outcome.ok (s + r.prodAmps q * z)) = .ok (s + term q) := by
        intro s q hq
        obtain ⟨m, _, hm, _⟩ := (hmemidx q).1 hq
        rw [(hreflOf q m hm).1]
        simp only [Outcome.ok_bind, (hreflOf q m hm).2, term, hm]
        by_cases hr : m.wave.refl = l.wave.refl
        · rw [if_neg (by simp [hr]), hL.rank hm, hL.rank hpl]
          have hcode : m.code = l.code ↔ m.rank = l.rank := by
            unfold Label.code
            cases hmw : m.wave with
            | flat =>
              have hlw : l.wave = .flat := by rw [hmw] at hr; exact refl_eq_zero.1 hr.symm
              rw [hlw, hL.flat m (List.mem_of_getElem? hm) hmw, hL.flat l (List.mem_of_getElem? hpl) hlw]
              simp
            | pw w =>
              cases hlw : l.wave with
              | flat => rw [hmw, hlw] at hr; exact absurd (refl_eq_zero.1 hr) (by simp)
              | pw w' => simp
          by_cases hk : m.rank = l.rank
          · rw [if_neg (by simp [hcode.2 hk]), if_pos ⟨hr, hk⟩, hz q m hm hr]
            rfl
          · rw [if_pos (fun e => hk (hcode.1 e)), if_neg (fun e => hk e.2), add_zero]
        · rw [if_pos hr, if_neg (fun e => hr e.1), add_zero]
      rw [foldlM_sum idx _ term hterm 0, zero_add]
      refine congrArg Outcome.ok ?_
      -- regroup by waves
      have hgroup : (idx.map term).sum = (ws.map fun w => ((idxs labels (W w)).map term).sum).sum := by
        rw [hidxdef]; exact sum_map_flatMap ws _ term
      rw [hgroup, ← List.sum_toFinset _ hwsnd, ← hSws]
      refine sum_congr rfl fun i hi => ?_
      have hipos : r.waveNames.idxOf (W i).text = i := by
        obtain ⟨h1, h2⟩ := List.getElem?_eq_some_iff.1 (hW i (hSlt i hi)).1
        rw [← h2, hI.nodup.idxOf_getElem]
      rw [hL.sum_idxs (W i) K hK (fun k => if (W i).refl = l.wave.refl ∧ k = l.rank then I i c else 0) term (by
        intro q k hq
        simp only [term, hq, hipos]
        by_cases h : (W i).refl = l.wave.refl ∧ k = l.rank
        · rw [if_pos h, if_pos h]
        · rw [if_neg h, if_neg h, mul_zero])]
      by_cases hr : (W i).refl = l.wave.refl
      · rw [if_pos hr, sum_eq_single_of_mem l.rank (mem_range.2 (hK l (List.mem_of_getElem? hpl)))]
        · rw [if_pos ⟨hr, rfl⟩]
        · intro k _ hk; rw [if_neg (fun e => hk e.2), mul_zero]
      · rw [if_neg hr]
        exact sum_eq_zero fun k _ => by rw [if_neg (fun e => hr e.1), mul_zero]
    -- norms as a function of the amplitude index
    have hex : ∀ p, ∃ z, p ∈ idx → r.ampNorm idx p = .ok z ∧
        ∀ l c, labels[p]? = some l → c ∈ S → l.wave = W c → z = nrm l.wave l.rank c := by
      intro p
      by_cases hp : p ∈ idx
      · obtain ⟨l, c, h1, h2, h3⟩ := (hmemidx p).1 hp
        refine ⟨nrm l.wave l.rank c, fun _ => ⟨hnorm p l c h1 h2 h3, fun l' c' h1' h2' h3' => ?_⟩⟩
        have hll : l = l' := by rw [h1, Option.some.injEq] at h1'; exact h1'
        subst hll
        rw [hWinj c (hSlt c h2) c' (hSlt c' h2') (h3.symm.trans h3')]
      · exact ⟨0, fun h => absurd h hp⟩
    choose nv hnv using hex
    have hcode2 : idx.mapM (fun i => r.ampNorm idx i) = .ok (idx.map nv) := mapM_ok idx _ nv fun p hp => (hnv p hp).1
    let G : ℕ → ℕ → ℝ := fun p b => 2 * (if b = 0 then (nv p).re else (nv p).im)
    let J : ℕ → ℝ := fun col => G (idx.getD (col / 2) 0) (col % 2)
    let D : ℕ → ℕ → ℝ := fun p b => (N : ℝ) * collect idx J p b
    refine ⟨f, hf, D, ?_, ?_⟩
    · intro p hp b hb
      rw [hL.count] at hp
      set l := labels[p] with hl
      have hpl : labels[p]? = some l := List.getElem?_eq_getElem hp
      -- derivative of f
      have d : HasDerivAt (fun t : ℝ => ∑ i ∈ S, ∑ j ∈ S,
          (if (W i).refl = (W j).refl then RHO (Function.update r.prodAmps p (r.prodAmps p + t * unit b)) (W i) (W j) else 0) * I i j)
          (∑ i ∈ S, ∑ j ∈ S, (if (W i).refl = (W j).refl then (N : ℂ) * ((if l.wave = W i then unit b * (starRingEnd ℂ) (ampOf r labels (W j) l.rank) else 0) +
            (if l.wave = W j then ampOf r labels (W i) l.rank * (starRingEnd ℂ) (unit b) else 0)) else 0) * I i j) 0 := by
        refine HasDerivAt.fun_sum fun i _ => HasDerivAt.fun_sum fun j _ => HasDerivAt.mul_const ?_ _
        by_cases h : (W i).refl = (W j).refl
        · simp only [if_pos h]; exact hasDerivAt_rho hL K hK hpl b (W i) (W j)
        · simp only [if_neg h]; exact hasDerivAt_const _ _
      refine (hasDerivAt_compPart 0 d).congr_deriv ?_
      unfold compPart
      rw [if_pos rfl]
      -- the two halves are complex conjugate
      have split : (∑ i ∈ S, ∑ j ∈ S, (if (W i).refl = (W j).refl then (N : ℂ) * ((if l.wave = W i then unit b * (starRingEnd ℂ) (ampOf r labels (W j) l.rank) else 0) +
            (if l.wave = W j then ampOf r labels (W i) l.rank * (starRingEnd ℂ) (unit b) else 0)) else 0) * I i j) =
          (starRingEnd ℂ) (∑ j ∈ S, ∑ i ∈ S, (if (W i).refl = (W j).refl then (N : ℂ) * (if l.wave = W j then ampOf r labels (W i) l.rank * (starRingEnd ℂ) (unit b) else 0) else 0) * I i j) +
          ∑ j ∈ S, ∑ i ∈ S, (if (W i).refl = (W j).refl then (N : ℂ) * (if l.wave = W j then ampOf r labels (W i) l.rank * (starRingEnd ℂ) (unit b) else 0) else 0) * I i j := by
        have hT : ∀ i j, (if (W i).refl = (W j).refl then (N : ℂ) * ((if l.wave = W i then unit b * (starRingEnd ℂ) (ampOf r labels (W j) l.rank) else 0) +
            (if l.wave = W j then ampOf r labels (W i) l.rank * (starRingEnd ℂ) (unit b) else 0)) else 0) * I i j =
            (starRingEnd ℂ) ((if (W j).refl = (W i).refl then (N : ℂ) * (if l.wave = W i then ampOf r labels (W j) l.rank * (starRingEnd ℂ) (unit b) else 0) else 0) * I j i) +
            (if (W i).refl = (W j).refl then (N : ℂ) * (if l.wave = W j then ampOf r labels (W i) l.rank * (starRingEnd ℂ) (unit b) else 0) else 0) * I i j := by
          intro i j
          have hh : (starRingEnd ℂ) (I j i) = I i j := (hI.herm j i).symm
          rw [map_mul, hh]
          by_cases h : (W i).refl = (W j).refl
          · rw [if_pos h, if_pos h.symm, if_pos h]
            by_cases h1 : l.wave = W i
            · rw [if_pos h1, if_pos h1]
              simp only [map_mul, Complex.conj_natCast, Complex.conj_conj]; ring
            · rw [if_neg h1, if_neg h1]
              simp only [mul_zero, map_zero]; ring
          · rw [if_neg h, if_neg (Ne.symm h), if_neg h]; simp
        rw [sum_congr rfl fun i _ => sum_congr rfl fun j _ => hT i j]
        simp only [sum_add_distrib]
        congr 1
        · rw [map_sum]
          exact sum_congr rfl fun i _ => (map_sum _ _ _).symm
        · exact sum_comm
      rw [split, Complex.add_re, Complex.conj_re]
      -- the code's side
      have hcol : collect idx J p b = if p ∈ idx then G p b else 0 := by
        unfold collect
        rw [← sum_getD_ite idx hidxnd p (fun k => G k b)]
        refine sum_congr rfl fun n _ => ?_
        simp only [J]
        rw [show (2 * n + b) / 2 = n by omega, show (2 * n + b) % 2 = b by omega]
      simp only [D, hcol]
      by_cases hpi : p ∈ idx
      · obtain ⟨l', c, h1, h2, h3⟩ := (hmemidx p).1 hpi
        have hll : l = l' := by rw [hpl, Option.some.injEq] at h1; exact h1
        subst hll
        have hval := (hnv p hpi).2 l c h1 h2 h3
        have e : ∑ j ∈ S, ∑ i ∈ S, (if (W i).refl = (W j).refl then (N : ℂ) * (if l.wave = W j then ampOf r labels (W i) l.rank * (starRingEnd ℂ) (unit b) else 0) else 0) * I i j =
            (N : ℂ) * ((starRingEnd ℂ) (unit b) * nv p) := by
          rw [sum_eq_single_of_mem c h2]
          · rw [hval]
            simp only [nrm, mul_sum]
            refine sum_congr rfl fun i _ => ?_
            rw [h3]
            by_cases h : (W i).refl = (W c).refl
            · simp only [if_pos h, if_true]; ring
            · simp only [if_neg h]; ring
          · intro j hj hjc
            refine sum_eq_zero fun i _ => ?_
            have : l.wave ≠ W j := fun e => hjc (hWinj j (hSlt j hj) c (hSlt c h2) (e.symm.trans h3))
            simp only [if_neg this, mul_zero, ite_self, zero_mul]
        rw [e, if_pos hpi]
        simp only [G]
        have hNc : (N : ℂ) = ((N : ℝ) : ℂ) := by simp
        rw [hNc, Complex.re_ofReal_mul]
        interval_cases b
        · simp [unit]; ring
        · simp [unit]; ring
      · rw [if_neg hpi]
        have e : ∑ j ∈ S, ∑ i ∈ S, (if (W i).refl = (W j).refl then (N : ℂ) * (if l.wave = W j then ampOf r labels (W i) l.rank * (starRingEnd ℂ) (unit b) else 0) else 0) * I i j = 0 := by
          refine sum_eq_zero fun j hj => sum_eq_zero fun i _ => ?_
          have : l.wave ≠ W j := fun e => hpi ((hmemidx p).2 ⟨l, j, hpl, hj, e⟩)
          simp only [if_neg this, mul_zero, ite_self, zero_mul]
        rw [e]; simp
    · have hmatch : r.intensityErrOf rx pat = (do
          let idx ← r.prodAmpIndicesForWaves rx ws
          let norms ← idx.mapM fun i => r.ampNorm idx i
          let J : ℕ → ℝ := fun col =>
            2 * (if col % 2 = 0 then (norms.getD (col / 2) 0).re else (norms.getD (col / 2) 0).im)
          let C := r.prodAmpCov idx
          Outcome.ok ((r.normNmbEvents : ℝ) * Real.sqrt (FitResult.sandwich C.nCols C.entry J J))) := by
        unfold FitResult.intensityErrOf
        rw [hws, hwsdef]
        simp only [hv, Bool.not_true, Bool.false_eq_true, if_false]
      rw [hmatch, hcode1]
      simp only [Outcome.ok_bind, hcode2]
      refine congrArg Outcome.ok ?_
      have hsand : FitResult.sandwich (r.prodAmpCov idx).nCols (r.prodAmpCov idx).entry
          (fun col => 2 * (if col % 2 = 0 then ((idx.map nv).getD (col / 2) 0).re else ((idx.map nv).getD (col / 2) 0).im))
          (fun col => 2 * (if col % 2 = 0 then ((idx.map nv).getD (col / 2) 0).re else ((idx.map nv).getD (col / 2) 0).im)) =
          FitResult.sandwich (r.prodAmpCov idx).nCols (r.prodAmpCov idx).entry J J := by
        have hJ : ∀ col ∈ range (2 * idx.length), 2 * (if col % 2 = 0 then ((idx.map nv).getD (col / 2) 0).re else ((idx.map nv).getD (col / 2) 0).im) = J col := by
          intro col hcol
          have hlt : col / 2 < idx.length := by have := mem_range.1 hcol; omega
          simp only [J, G]
          rw [List.getD_eq_getElem _ _ (by simpa using hlt), List.getD_eq_getElem _ _ hlt, List.getElem_map]
        unfold FitResult.sandwich
        refine sum_congr rfl fun a ha => ?_
        beta_reduce
        rw [hJ a ha]
        congr 1
        exact sum_congr rfl fun c hc => by rw [hJ c hc]
      rw [hsand, sandwich_eq r hv _ hidxlt, propagate_smul]
      have hNn : (0 : ℝ) ≤ N := Nat.cast_nonneg _
      rw [Real.sqrt_mul (mul_nonneg hNn hNn), Real.sqrt_mul_self hNn]

end Rpwa.Fit

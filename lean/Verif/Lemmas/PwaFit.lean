import Verif.Spec.PwaFit
import Verif.Lemmas.Outcome
import Verif.Lemmas.Hessian
import Verif.Lemmas.Covariance
import Verif.Props.LikTools
import Mathlib.Tactic.FieldSimp
/-! # Lemmas for C60-C62 -/
namespace Rpwa

theorem Outcome.bind_eq_ok {α β : Type} {x : Outcome α} {f : α → Outcome β} {b : β} : (x >>= f) = .ok b ↔ ∃ a, x = .ok a ∧ f a = .ok b := by
  cases x with
  | ok a => exact ⟨fun h => ⟨a, rfl, h⟩, by rintro ⟨_, h, h'⟩; cases h; exact h'⟩
  | terminate => exact ⟨fun h => (by cases h), by rintro ⟨_, h, _⟩; cases h⟩
  | ub => exact ⟨fun h => (by cases h), by rintro ⟨_, h, _⟩; cases h⟩

end Rpwa
namespace Rpwa.Lik

open Finset Complex

section signs
variable (L : LikData) (a b : Amps) (f g : ℝ) (eps : ℕ → ℕ → ℝ) (eta : ℝ)

theorem ampSum_signs (hb : ∀ r e w, r < L.rank → e < 2 → w < L.nW e → b (r, e, w) = (eps r e : ℂ) * a (r, e, w)) (ev r e : ℕ)
    (hr : r < L.rank) (he : e < 2) : L.ampSum b ev r e = (eps r e : ℂ) * L.ampSum a ev r e := by
  unfold LikData.ampSum
  rw [mul_sum]
  refine sum_congr rfl fun w hw => ?_
  rw [hb r e w hr he (mem_range.1 hw)]; ring

theorem sigma_signs (he : ∀ r e, eps r e * eps r e = 1)
    (hb : ∀ r e w, r < L.rank → e < 2 → w < L.nW e → b (r, e, w) = (eps r e : ℂ) * a (r, e, w)) (hg : g * g = f * f) (ev : ℕ) :
    L.sigma b g ev = L.sigma a f ev := by
  unfold LikData.sigma
  rw [hg]
  congr 1
  refine sum_congr rfl fun r hr => sum_congr rfl fun e he' => ?_
  rw [ampSum_signs L a b eps hb ev r e (mem_range.1 hr) (mem_range.1 he'), normSq_mul, normSq_ofReal, he, one_mul]

theorem evtDeriv_signs (hb : ∀ r e w, r < L.rank → e < 2 → w < L.nW e → b (r, e, w) = (eps r e : ℂ) * a (r, e, w)) (ev : ℕ) (s : Slot)
    (hr : s.1 < L.rank) (he : s.2.1 < 2) : L.evtDeriv b ev s = (eps s.1 s.2.1 : ℂ) * L.evtDeriv a ev s := by
  unfold LikData.evtDeriv
  rw [ampSum_signs L a b eps hb ev s.1 s.2.1 hr he]; ring

theorem hess_signs (he : ∀ r e, eps r e * eps r e = 1)
    (hb : ∀ r e w, r < L.rank → e < 2 → w < L.nW e → b (r, e, w) = (eps r e : ℂ) * a (r, e, w)) (hg : g * g = f * f) (s t : Slot)
    (hs : s.1 < L.rank ∧ s.2.1 < 2 ∧ s.2.2 < L.nW s.2.1) (ht : t.1 < L.rank ∧ t.2.1 < 2 ∧ t.2.2 < L.nW t.2.1) (c : ℕ) :
    L.hess b g s t c = eps s.1 s.2.1 * eps t.1 t.2.1 * L.hess a f s t c := by
  have hsig := sigma_signs L a b f g eps he hb hg
  have hes := fun ev => evtDeriv_signs L a b eps hb ev s hs.1 hs.2.1
  have het := fun ev => evtDeriv_signs L a b eps hb ev t ht.1 ht.2.1
  have hbs : b s = (eps s.1 s.2.1 : ℂ) * a s := hb s.1 s.2.1 s.2.2 hs.1 hs.2.1 hs.2.2
  have hnorm : ‖b s‖ = ‖a s‖ := by
    rw [hbs, norm_mul, Complex.norm_real]
    have h1 : |eps s.1 s.2.1| = 1 := by
      have h1 := abs_mul_abs_self (eps s.1 s.2.1)
      rw [he] at h1
      nlinarith [abs_nonneg (eps s.1 s.2.1)]
    rw [Real.norm_eq_abs, h1, one_mul]
  have hre : (b s).re = eps s.1 s.2.1 * (a s).re := by rw [hbs]; simp
  have him : (b s).im = eps s.1 s.2.1 * (a s).im := by rw [hbs]; simp
  unfold LikData.hess
  simp only [hsig, hes, het]
  have hsame : s.1 = t.1 ∧ s.2.1 = t.2.1 → eps s.1 s.2.1 * eps t.1 t.2.1 = 1 := by
    rintro ⟨h1, h2⟩; rw [← h1, ← h2]; exact he _ _
  rw [mul_sub, mul_add, mul_sum]
  refine congrArg₂ (· - ·) (congrArg₂ (· + ·) (sum_congr rfl fun ev _ => ?_) ?_) ?_
  · rw [mul_add]
    refine congrArg₂ (· + ·) ?_ ?_
    · simp only [re_ofReal_mul, im_ofReal_mul]
      split_ifs <;> ring
    · by_cases h : s.1 = t.1 ∧ s.2.1 = t.2.1
      · rw [if_pos h, hsame h, one_mul]
      · rw [if_neg h, mul_zero]
  · by_cases h : s.1 = t.1 ∧ s.2.1 = t.2.1
    · rw [if_pos h, hsame h, one_mul]
    · rw [if_neg h, mul_zero]
  · cases L.prior with
    | flat => simp
    | halfCauchy =>
      simp only
      by_cases h : s = t
      · subst h
        rw [if_pos rfl, if_pos rfl, hnorm, hre, him, he]
        have h1 := he s.1 s.2.1
        generalize eps s.1 s.2.1 = x at *
        have h2 : ∀ A B C : ℝ, A * (x * B) * (x * C) = A * B * C := by
          intro A B C
          calc _ = (x * x) * (A * B * C) := by ring
            _ = _ := by rw [h1, one_mul]
        simp only [h2, one_mul]
      · rw [if_neg h, if_neg h, mul_zero]

theorem hessEntry_signs (he : ∀ r e, eps r e * eps r e = 1)
    (hb : ∀ r e w, r < L.rank → e < 2 → w < L.nW e → b (r, e, w) = (eps r e : ℂ) * a (r, e, w)) (hg : g * g = f * f) (c c' : Comp)
    (hs : c.1.1 < L.rank ∧ c.1.2.1 < 2 ∧ c.1.2.2 < L.nW c.1.2.1) (ht : c'.1.1 < L.rank ∧ c'.1.2.1 < 2 ∧ c'.1.2.2 < L.nW c'.1.2.1) :
    hessEntry L b g c c' = eps c.1.1 c.1.2.1 * eps c'.1.1 c'.1.2.1 * hessEntry L a f c c' := by
  unfold hessEntry
  obtain ⟨s, x⟩ := c
  obtain ⟨t, y⟩ := c'
  cases x <;> cases y <;> simp only
  · exact hess_signs L a b f g eps he hb hg s t hs ht 2
  · rw [hess_signs L a b f g eps he hb hg t s ht hs 1]; ring
  · exact hess_signs L a b f g eps he hb hg s t hs ht 1
  · exact hess_signs L a b f g eps he hb hg s t hs ht 0

theorem flatTerms_signs (he : ∀ r e, eps r e * eps r e = 1)
    (hb : ∀ r e w, r < L.rank → e < 2 → w < L.nW e → b (r, e, w) = (eps r e : ℂ) * a (r, e, w)) (hg : g = eta * f) (heta : eta * eta = 1)
    (s : Slot) (hr : s.1 < L.rank) (he' : s.2.1 < 2) :
    L.flatTerms b g s = ((eps s.1 s.2.1 * eta : ℝ) : ℂ) * L.flatTerms a f s := by
  have hg2 : g * g = f * f := by rw [hg]; linear_combination f * f * heta
  unfold LikData.flatTerms
  rw [mul_sum]
  refine sum_congr rfl fun ev _ => ?_
  rw [sigma_signs L a b f g eps he hb hg2, evtDeriv_signs L a b eps hb ev s hr he', hg]
  push_cast
  ring

theorem hessianFlat_signs (he : ∀ r e, eps r e * eps r e = 1)
    (hb : ∀ r e w, r < L.rank → e < 2 → w < L.nW e → b (r, e, w) = (eps r e : ℂ) * a (r, e, w)) (hg : g * g = f * f) :
    L.hessianFlat b g = L.hessianFlat a f := by
  unfold LikData.hessianFlat
  simp only [sigma_signs L a b f g eps he hb hg, hg]

end signs

/-- the sign of a parameter: the sign of its block, or of the flat wave. -/
noncomputable def parSign (comp : List Comp) (eps : ℕ → ℕ → ℝ) (eta : ℝ) (k : ℕ) : ℝ :=
  match comp[k]? with
  | some c => eps c.1.1 c.1.2.1
  | none => eta

theorem hessian_signs (L : LikData) {d : ParData} {comp : List Comp} (hl : Layout L d comp) (par out : ℕ → ℝ) (eps : ℕ → ℕ → ℝ) (eta : ℝ)
    (he : ∀ r e, eps r e * eps r e = 1) (heta : eta * eta = 1)
    (hb : ∀ r e w, r < L.rank → e < 2 → w < L.nW e → L.amps out (r, e, w) = (eps r e : ℂ) * L.amps par (r, e, w))
    (hg : L.flat out = eta * L.flat par) (i j : ℕ) :
    L.hessian d out i j = parSign comp eps eta i * parSign comp eps eta j * L.hessian d par i j := by
  obtain ⟨F, hF⟩ := hl.fixed
  rw [hessian_entries hl hF out, hessian_entries hl hF par]
  have hg2 : L.flat out * L.flat out = L.flat par * L.flat par := by rw [hg]; linear_combination L.flat par * L.flat par * heta
  have hin : ∀ (k : ℕ) (c : Comp), comp[k]? = some c → c.1.1 < L.rank ∧ c.1.2.1 < 2 ∧ c.1.2.2 < L.nW c.1.2.1 := by
    intro k c hc
    have := (hl.free c).1 (List.mem_of_getElem? hc)
    exact ⟨this.1, this.2.1, this.2.2.1⟩
  unfold parSign
  cases hi : comp[i]? with
  | some c =>
    cases hj : comp[j]? with
    | some c' =>
      simp only
      split_ifs
      · exact hessEntry_signs L _ _ _ _ eps he hb hg2 c c' (hin i c hi) (hin j c' hj)
      · ring
    | none =>
      simp only
      split_ifs
      · rw [flatTerms_signs L _ _ _ _ eps eta he hb hg heta c.1 (hin i c hi).1 (hin i c hi).2.1, part_ofReal_mul]
      · ring
  | none =>
    cases hj : comp[j]? with
    | some c =>
      simp only
      split_ifs
      · rw [flatTerms_signs L _ _ _ _ eps eta he hb hg heta c.1 (hin j c hj).1 (hin j c hj).2.1, part_ofReal_mul]; ring
      · ring
    | none =>
      simp only
      split_ifs
      · rw [hessianFlat_signs L _ _ _ _ eps he hb hg2, heta, one_mul]
      · ring

/-- the signs that `CorrectParamSigns` changes. -/
theorem correct_signs (L : LikData) {d : ParData} {comp : List Comp} (hl : Layout L d comp) (par out : ℕ → ℝ)
    (h : correctParamSigns L.rank L.nW d par = .ok out) : ∃ (eps : ℕ → ℕ → ℝ) (eta : ℝ),
      (∀ r e, eps r e * eps r e = 1) ∧ eta * eta = 1 ∧
      (∀ r e w, r < L.rank → e < 2 → w < L.nW e → L.amps out (r, e, w) = (eps r e : ℂ) * L.amps par (r, e, w)) ∧
      L.flat out = eta * L.flat par ∧ ∀ k < d.nmbPars, out k = parSign comp eps eta k * par k := by
  classical
  obtain ⟨hr, hc, hout⟩ := correct_amps L d comp hl par out h
  have hblock : ∀ r e w, r < L.rank → e < 2 → w < L.nW e → L.amps out (r, e, w) =
      (((if Flip (copyFromParArray L.rank L.nW par).1 r e then -1 else 1 : ℝ)) : ℂ) * L.amps par (r, e, w) := by
    intro r e w h1 h2 h3
    unfold LikData.amps
    rw [hc]
    unfold flipped
    have hb : ((r, e) : ℕ × ℕ) ∈ blocks L.rank := (mem_blocks _ _).2 ⟨h1, h2⟩
    by_cases hf : Flip (copyFromParArray L.rank L.nW par).1 r e
    · simp only [if_pos hf]; rw [if_pos ⟨hb, h3, hf⟩]; simp
    · simp only [if_neg hf]; rw [if_neg (fun h => hf h.2.2)]; simp
  have hflat : L.flat out = (if L.flat par < 0 then -1 else 1) * L.flat par := by
    have : L.flat out = |L.flat par| := by unfold LikData.flat; rw [hc]
    rw [this]
    split_ifs with hneg
    · rw [abs_of_neg hneg]; ring
    · rw [abs_of_nonneg (not_lt.1 hneg)]; ring
  refine ⟨fun r e => if Flip (copyFromParArray L.rank L.nW par).1 r e then -1 else 1, if L.flat par < 0 then -1 else 1, ?_, ?_, hblock, hflat, ?_⟩
  · intro r e; dsimp only; split_ifs <;> norm_num
  · split_ifs <;> norm_num
  · intro k hk
    unfold parSign
    cases hk' : comp[k]? with
    | some c =>
      have hfree := (hl.free c).1 (List.mem_of_getElem? hk')
      have e1 := hl.fromPar out k c hk'
      have e2 := hl.fromPar par k c hk'
      have e3 : (copyFromParArray L.rank L.nW out).1 c.1 = _ := hblock c.1.1 c.1.2.1 c.1.2.2 hfree.1 hfree.2.1 hfree.2.2.1
      rw [← e1, e3, part_ofReal_mul]
      simp only
      rw [← e2]
      rfl
    | none =>
      have hkl : k = comp.length := by
        have := List.getElem?_eq_none_iff.1 hk'
        have := hl.nmb
        omega
      have e1 := hl.fromFlat out
      have e2 := hl.fromFlat par
      simp only
      rw [hkl, ← e1, ← e2]
      exact hflat

end Rpwa.Lik

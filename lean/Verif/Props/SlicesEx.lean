import Verif.Props.Slices
import Verif.Props.RefitEx
import Mathlib.Analysis.Matrix.Spectrum
/-! # C106: examples -/
namespace Rpwa.Refit

open Finset Rpwa.Lik Rpwa.Fit Rpwa.PwaFit

open Classical in
/-- the assumption about ROOT can be met. -/
theorem eigenOk_exists : ∃ eig, EigenOk eig := by
  have key : ∀ n (M : ℕ → ℕ → ℝ), (∀ i j, M i j = M j i) → ∃ g : ℕ → (ℕ → ℝ) × ℝ, ∀ i < n, IsEigen n M (g i).1 (g i).2 ∧
      ∑ j ∈ range n, (g i).1 j * (g i).1 j = 1 := by
    intro n M hM
    let A : Matrix (Fin n) (Fin n) ℝ := fun i j => M i j
    have hA : A.IsHermitian := by
      ext i j
      exact hM j i
    refine ⟨fun i => if hi : i < n then (fun j => if hj : j < n then hA.eigenvectorBasis ⟨i, hi⟩ ⟨j, hj⟩ else 0, hA.eigenvalues ⟨i, hi⟩)
      else (fun _ => 0, 0), ?_⟩
    intro i hi
    simp only [dif_pos hi]
    have hv := hA.mulVec_eigenvectorBasis ⟨i, hi⟩
    have hn := hA.eigenvectorBasis.orthonormal.1 ⟨i, hi⟩
    constructor
    · intro k hk
      have := congrFun hv ⟨k, hk⟩
      rw [sum_range]
      dsimp only
      rw [dif_pos hk]
      refine Eq.trans ?_ this
      unfold Matrix.mulVec dotProduct
      refine sum_congr rfl fun j _ => ?_
      rw [dif_pos j.2]
    · have h2 : ‖hA.eigenvectorBasis ⟨i, hi⟩‖ ^ 2 = 1 := by rw [hn]; norm_num
      rw [EuclideanSpace.norm_sq_eq] at h2
      rw [sum_range, ← h2]
      refine sum_congr rfl fun j _ => ?_
      rw [dif_pos j.2, Real.norm_eq_abs, sq_abs, sq]
  choose g hg using key
  refine ⟨fun n M i => if h : ∀ i j, M i j = M j i then g n M h i else (fun _ => 0, 0), ?_⟩
  intro n M hM i hi
  dsimp only
  rw [dif_pos hM]
  exact hg n M hM i hi

/-- the parameters of the example: 2 for every parameter that is not fixed. -/
noncomputable def exPar (s : LikObj) : ℕ → ℝ := fun k => if LikData.fixedAt s.pars k then 0 else 2

/-- the covariance matrix of the example: 9 for every parameter that is not fixed, no correlations. -/
noncomputable def exCov (s : LikObj) : ℕ → ℕ → ℝ := fun i j => if i = j ∧ LikData.fixedAt s.pars i = false then 9 else 0

theorem ex_accHermitian (i j : WaveIx) (hi : exSetup.IsWave i) (hj : exSetup.IsWave j) (hij : i.1 = j.1) :
    exSetup.acc.entry (exSetup.waveName j) (exSetup.waveName i) =
      (starRingEnd ℂ) (exSetup.acc.entry (exSetup.waveName i) (exSetup.waveName j)) := by
  have h0 : exSetup.acc.entry "b" "b" = 0 := rfl
  have h1 : exSetup.acc.entry "a" "a" = 16 := rfl
  rcases exSetup_waves i hi with ⟨rfl, e1⟩ | ⟨rfl, e1⟩ <;> rcases exSetup_waves j hj with ⟨rfl, e2⟩ | ⟨rfl, e2⟩
  · rw [e1, h0]; simp
  · simp at hij
  · simp at hij
  · rw [e1, h1]; exact (Complex.conj_ofNat 16).symm

/-- the hypotheses of `slices_of_fit` are met, and all eigenvalues are 9: the slices are drawn up to the distance 3. -/
theorem ex_slices (inv : ℕ → (ℕ → ℕ → ℝ) → (ℕ → ℕ → ℝ)) (hinv : Inverts inv) (eig : ℕ → (ℕ → ℕ → ℝ) → ℕ → (ℕ → ℝ) × ℝ) (hE : EigenOk eig) :
    ∃ (s : LikObj) (E : List ((ℕ → ℝ) × ℝ)), FitOf exSetup 1 exDesc s ∧ (∀ ev ∈ E, ev.2 = 9) ∧ E ≠ [] ∧
      likelihoodSlices inv eig (filesOf exSetup) exDesc true
        [storedFit exSetup s ⟨false, false⟩ [("mass".toList, 1, 2)] (exPar s) 0 (exCov s) true true] =
        .ok (some (E.map fun ev => ⟨sliceGraph s.data.doEval (exPar s) ev.1 9, 9, none⟩)) := by
  obtain ⟨s, hF⟩ := ex_fitOf
  have hm : 0 < centre [("mass".toList, 1, 2)] := by
    obtain ⟨_, _, _, _, h⟩ := ex_point
    exact h
  have hfix : ∀ k < s.pars.nmbPars, LikData.fixedAt s.pars k = true → exPar s k = 0 := fun k _ h => if_pos h
  obtain ⟨s', wl, m', e1, e2, e3, e4, e5⟩ := slices_of_fit hF ⟨false, false⟩ [("mass".toList, 1, 2)] (exPar s) 0 (exCov s) true inv hinv eig hE
    ex_accHermitian hm hfix rfl
  obtain ⟨s'', f1, f2, f3⟩ := refit_fixed hF ⟨false, false⟩ [("mass".toList, 1, 2)] (exPar s) 0 (exCov s) true true hm hfix
  rw [e1] at f1
  cases Option.some.inj (Outcome.ok.inj f1)
  have hsame : ∀ k, LikData.fixedAt s'.pars k = LikData.fixedAt s.pars k := by
    apply f3
    intro k p i hk hp hi hn
    obtain ⟨l1, l2, _, _, _, _⟩ := hF.lik
    obtain ⟨order, hs⟩ := hF.hset
    obtain ⟨comp, c1, c2, c3, c4, c5, c6, c7, c8, _⟩ := params_spec exSetup hF.hdiag order s hs hF.noFlat
    have hkl := (List.getElem?_eq_some_iff.1 hk).1
    rw [c4, c3] at hkl
    rcases Nat.lt_succ_iff_lt_or_eq.1 hkl with hlt | hlt
    · have hck : comp[k]? = some comp[k] := List.getElem?_eq_getElem hlt
      obtain ⟨p', p1, p2, p3, p4, p5⟩ := c7 k _ hck
      rw [hk] at p1; cases p1
      have hfr := (c2 comp[k]).1 (List.getElem_mem hlt)
      have hi2 : comp[k].1.2 = i := exSetup.waveName_inj hF.husable.hnodup _ _ ⟨hfr.2.1, hfr.2.2.1⟩ hi (p2.symm.trans hn)
      refine ⟨comp[k].1.1, hfr.1, ?_⟩
      intro h0
      have hpart := c5 (exPar s) k _ hck
      have : (copyFromParArray exSetup.rank exSetup.waves.nW (exPar s)).1 comp[k].1 = 0 := by
        rw [← h0, ← hi2, ← l1, ← l2]; rfl
      rw [this] at hpart
      have h2 : exPar s k = 2 := by
        unfold exPar
        rw [if_neg]
        unfold LikData.fixedAt
        rw [hk]
        simp [hp]
      rw [h2] at hpart
      unfold part at hpart
      split at hpart <;> simp at hpart
    · subst hlt
      obtain ⟨p', p1, p2, _⟩ := c8
      rw [hk] at p1; cases p1
      exact absurd (hn.symm.trans p2) (hF.noFlat i hi)
  obtain ⟨E, g1, g2, _, _⟩ := e5 (by
    intro i j _ _ h
    unfold exCov
    rw [if_neg]
    rintro ⟨rfl, h'⟩
    rw [hsame, or_self] at h
    rw [h'] at h; cases h) (by
    intro i j _ _
    unfold exCov
    by_cases hij : i = j
    · subst hij; rfl
    · rw [if_neg fun h => hij h.1, if_neg fun h => hij h.1.symm])
  have hnine : ∀ ev ∈ E, ev.2 = 9 := by
    intro ev hev
    obtain ⟨h1, h2, h3⟩ := g1.2 ev hev
    have hne : ∃ i < s'.pars.nmbPars, ev.1 i ≠ 0 := by
      by_contra hc
      push Not at hc
      have : norm2 s'.pars ev.1 = 0 := sum_eq_zero fun i hi => by rw [hc i (mem_range.1 hi), mul_zero]
      rw [this] at h3; norm_num at h3
    obtain ⟨i, hi, hne⟩ := hne
    have hfi : LikData.fixedAt s.pars i = false := by
      rw [← hsame]
      by_contra hc
      rw [Bool.not_eq_false] at hc
      exact hne (h2 i hi hc)
    have := h1 i hi
    rw [sum_eq_single i] at this
    · unfold exCov at this
      rw [if_pos ⟨rfl, hfi⟩] at this
      exact (mul_right_cancel₀ hne this).symm
    · intro j _ hj
      unfold exCov
      rw [if_neg fun h => hj h.1.symm, zero_mul]
    · intro h; exact absurd (mem_range.2 hi) h
  refine ⟨s, E, hF, hnine, ?_, ?_⟩
  · intro h0
    have hl := g1.1
    rw [h0] at hl
    obtain ⟨comp, hl2⟩ := layout_of_matches s.data e4
    have : comp.length ∈ (List.range s'.pars.nmbPars).filter fun i => !LikData.fixedAt s'.pars i := by
      rw [List.mem_filter, List.mem_range, hl2.nmb, hl2.flatFree]
      exact ⟨by omega, rfl⟩
    have := List.length_pos_of_mem this
    rw [← hl] at this
    exact absurd this (by simp)
  · rw [g2 fun ev hev => by rw [hnine ev hev]; norm_num]
    congr 2
    apply List.map_congr_left
    intro ev hev
    rw [hnine ev hev]

end Rpwa.Refit

namespace Rpwa.Lik

open Finset Complex

/-- the hypotheses of `parabola_osculates` are met: one wave, one event; the likelihood `-log (a² + f²) + a² + 2 f²` has a stationary point at
`a = 1`, `f = 0`; the variance of `a` is 1/4. -/
theorem ex_parabola : ∃ (L : LikData) (wl : WaveList) (d : ParData) (par e out : ℕ → ℝ) (C : ℕ → ℕ → ℝ), L.Matches wl d 1 ∧ L.AccHermitian ∧
    L.DefinedAt par ∧ (∀ k < d.nmbPars, L.PriorDefinedAt d par k) ∧ InFree d e ∧
    (∀ k < d.nmbPars, LikData.fixedAt d k = false → L.gradient d par out k = 0) ∧ InverseOnFree d (L.hessian d par) C ∧
    IsEigen d.nmbPars C e (1 / 4) ∧ norm2 d e = 1 ∧ d.nmbPars = 2 := by
  let wl : WaveList := ⟨fun e => if e = 1 then 1 else 0, fun _ _ => "w", fun _ _ => 0⟩
  let L : LikData := ⟨1, wl.nW, 1, fun _ _ _ => 1, fun _ _ _ => 1, 2, true, .flat, 1⟩
  obtain ⟨comp, c1, c2, d, hd, c3, _, cp, cf, _, _, c9, c10, c11, _⟩ := parameters_enumerate_components wl 1 1 (by simp [wl])
  have hm : L.Matches wl d 1 := ⟨⟨d, [], hd, by simp, rfl⟩, rfl⟩
  have hmem : ∀ c, c ∈ comp ↔ c = (((0, 1, 0) : Slot), true) := by
    rintro ⟨⟨r, e, w⟩, b⟩
    rw [c2]
    unfold Free
    simp only [wl]
    constructor
    · rintro ⟨h1, h2, h3, h4, h5⟩
      have hr : r = 0 := by omega
      split at h3
      · cases b
        · have := h5 rfl; omega
        · have hw : w = 0 := by omega
          subst hr hw; rename_i he; subst he; rfl
      · omega
    · intro h
      cases h
      simp
  obtain ⟨comp', hl⟩ := layout_of_matches L hm
  have hmem' : ∀ c, c ∈ comp' ↔ c = (((0, 1, 0) : Slot), true) := by
    intro c
    rw [hl.free, ← hmem c, c2]
  have hc : comp' = [(((0, 1, 0) : Slot), true)] := by
    cases comp' with
    | nil => have := (hmem' (((0, 1, 0) : Slot), true)).2 rfl; simp at this
    | cons a l =>
      have ha := (hmem' a).1 (by simp)
      subst ha
      cases l with
      | nil => rfl
      | cons b l =>
        have hb := (hmem' b).1 (by simp)
        subst hb
        have := hl.nodup
        simp at this
  subst hc
  obtain ⟨F, hF⟩ := hl.fixed
  let par : ℕ → ℝ := fun k => if k = 0 then 1 else 0
  have hV1 : L.amps par (0, 1, 0) = 1 := by
    have h1 := hl.fromPar par 0 _ rfl
    have h2 := hl.fromZero par (0, 1, 0) false (by rw [← hl.free]; simp)
    simp only [part, if_true, Bool.false_eq_true, if_false] at h1 h2
    exact Complex.ext h1 h2
  have hf0 : L.flat par = 0 := hl.fromFlat par
  have hamp : ∀ ev, L.ampSum (L.amps par) ev 0 1 = 1 := by
    intro ev
    unfold LikData.ampSum
    have : L.nW 1 = 1 := rfl
    rw [this, sum_range_one, hV1]
    simp [L]
  have hamp0 : ∀ ev, L.ampSum (L.amps par) ev 0 0 = 0 := by
    intro ev
    unfold LikData.ampSum
    have : L.nW 0 = 0 := rfl
    rw [this, sum_range_zero]
  have hsig : ∀ ev, L.sigma (L.amps par) (L.flat par) ev = 1 := by
    intro ev
    unfold LikData.sigma
    have : L.rank = 1 := rfl
    rw [this, sum_range_one, sum_range_succ, sum_range_one, hamp, hamp0, hf0]
    simp
  have hev : ∀ ev, L.evtDeriv (L.amps par) ev (0, 1, 0) = 1 := by
    intro ev
    unfold LikData.evtDeriv
    rw [hamp]
    simp [L]
  have hn : L.nmbEvents = 1 := rfl
  have hnE : L.nmbEvt = 1 := by simp [LikData.nmbEvt, L]
  have hfx : ∀ k < 2, LikData.fixedAt d k = false := by
    intro k hk
    rcases (by omega : k = 0 ∨ k = 1) with rfl | rfl
    · obtain ⟨i, hi⟩ := List.getElem?_of_mem ((hmem (((0, 1, 0) : Slot), true)).2 rfl)
      have hi0 : i = 0 := by
        have h1 := c10 (fun i => (i : ℝ)) i _ hi
        have h2 := hl.fromPar (fun i => (i : ℝ)) 0 _ rfl
        have : (i : ℝ) = ((0 : ℕ) : ℝ) := h1.symm.trans h2
        exact_mod_cast this
      subst hi0
      obtain ⟨p, hp, _, _, _, _, hpf⟩ := cp 0 _ hi
      unfold LikData.fixedAt
      rw [hp]
      cases hx : p.fixed
      · simp [hx]
      · exact absurd rfl (hpf.1 hx).1
    · exact hl.flatFree
  have hF0 : F (0, 1, 0) = false := by rw [← hF 0 _ rfl]; exact hfx 0 (by omega)
  have hN : d.nmbPars = 2 := hl.nmb
  have hH : ∀ a b, a < 2 → b < 2 → L.hessian d par a b = if a = b then (if a = 0 then 4 else 2) else 0 := by
    intro a b ha hb
    rw [hessian_entries hl hF]
    rcases (by omega : a = 0 ∨ a = 1) with rfl | rfl <;> rcases (by omega : b = 0 ∨ b = 1) with rfl | rfl
    · simp only [List.getElem?_cons_zero, hF0, and_self, if_true, hessEntry]
      unfold LikData.hess
      simp only [hn, sum_range_one, hsig, hev, hnE]
      simp [L]
      norm_num
    · simp only [List.getElem?_cons_zero, List.getElem?_cons_succ, List.getElem?_nil, hF0, LikData.flatTerms, hn, sum_range_one, hsig, hev, hf0]
      simp [part]
    · simp only [List.getElem?_cons_zero, List.getElem?_cons_succ, List.getElem?_nil, hF0, LikData.flatTerms, hn, sum_range_one, hsig, hev, hf0]
      simp [part]
    · simp only [List.getElem?_cons_succ, List.getElem?_nil, LikData.hessianFlat, hn, sum_range_one, hsig, hnE]
      simp [L]
      rw [show L.flat par = 0 from hf0]
      norm_num
  refine ⟨L, wl, d, par, fun k => if k = 0 then 1 else 0, fun _ => 0, fun i j => if i = j then (if i = 0 then 1 / 4 else 1 / 2) else 0, hm,
    fun _ _ _ => by simp [L], ⟨fun ev _ => by rw [hsig]; norm_num, fun h => by cases h⟩, (fun k _ h => by cases h), ?_, ?_, ?_, ?_, ?_, hN⟩
  · intro i hi h
    rw [hfx i (by omega)] at h; cases h
  · intro k hk _
    unfold LikData.gradient
    rcases (by omega : k = 0 ∨ k = 1) with rfl | rfl
    · rw [hl.toPar _ _ _ 0 _ rfl]
      show part (L.derivatives (L.amps par) (L.flat par) (0, 1, 0)) true = 0
      unfold LikData.derivatives
      have hw : L.nW 1 = 1 := rfl
      simp only [hn, sum_range_one, hsig, hev, hnE, hw, hV1]
      have hp : L.priorDeriv (L.amps par) (0, 1, 0) = 0 := rfl
      rw [hp]
      simp [L, part]
    · have := hl.toFlat (L.derivatives (L.amps par) (L.flat par)) (L.derivativeFlat (L.amps par) (L.flat par)) fun _ => 0
      refine Eq.trans this ?_
      unfold LikData.derivativeFlat
      rw [hf0]; simp
  · intro i k hi hk _ _
    rw [hN] at hi hk
    have hflt : (range d.nmbPars).filter (fun j => LikData.fixedAt d j = false) = range 2 := by
      rw [hN]
      apply filter_true_of_mem
      intro j hj
      exact hfx j (mem_range.1 hj)
    rw [hflt, sum_range_succ, sum_range_one, hH i 0 hi (by omega), hH i 1 hi (by omega)]
    rcases (by omega : i = 0 ∨ i = 1) with rfl | rfl <;> rcases (by omega : k = 0 ∨ k = 1) with rfl | rfl <;> norm_num
  · intro i hi
    rw [hN] at hi
    rw [hN, sum_range_succ, sum_range_one]
    rcases (by omega : i = 0 ∨ i = 1) with rfl | rfl <;> norm_num
  · unfold norm2
    rw [hN, sum_range_succ, sum_range_one]
    norm_num

end Rpwa.Lik

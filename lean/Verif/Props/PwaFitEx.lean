import Verif.Props.PwaFit
/-! # C60: a fit with one wave and two events -/
namespace Rpwa.PwaFit

open Rpwa.Lik Rpwa.Fit Finset Complex

/-- one wave with reflectivity index 1. -/
def exWaves : WaveList := ⟨fun e => if e = 1 then 1 else 0, fun _ _ => "w", fun _ _ => 0⟩

/-- two events: the wave does not contribute to the first and has amplitude 2 in the second. -/
noncomputable def exFn : LikData :=
  ⟨1, exWaves.nW, 2, fun _ ev _ => if ev = 0 then 0 else 2, fun _ _ _ => 1, 3 / 4, false, .flat, 1⟩

theorem exLayout : ∃ d : ParData, exFn.Matches exWaves d 1 ∧ Layout exFn d [(((0, 1, 0) : Slot), true)] ∧ d.nmbPars = 2 ∧
    LikData.fixedAt d 0 = false ∧ LikData.fixedAt d 1 = false ∧ d.nmbParsFixed = (d.params.filter (·.fixed)).length := by
  obtain ⟨comp, c1, c2, d, hd, c3, c4, cp, cf, c7, c8, c9, c10, c11, c12, c13, _⟩ := parameters_enumerate_components exWaves 1 1 (by simp [exWaves])
  have hm : exFn.Matches exWaves d 1 := ⟨⟨d, [], hd, by simp, rfl⟩, rfl⟩
  have hc : comp = [(((0, 1, 0) : Slot), true)] := by
    have hmem : ∀ c, c ∈ comp ↔ c = (((0, 1, 0) : Slot), true) := by
      rintro ⟨⟨r, e, w⟩, b⟩
      rw [c2]
      unfold Free
      simp only [exWaves]
      constructor
      · rintro ⟨h1, h2, h3, h4, h5⟩
        have hr : r = 0 := by omega
        split at h3
        · cases b
          · have := h5 rfl; omega
          · have hw : w = 0 := by omega
            subst hr hw; rename_i he; subst he; rfl
        · omega
      · intro h
        cases h
        simp
    cases comp with
    | nil => have := (hmem (((0, 1, 0) : Slot), true)).2 rfl; simp at this
    | cons a l =>
      have ha := (hmem a).1 (by simp)
      subst ha
      cases l with
      | nil => rfl
      | cons b l =>
        have hb := (hmem b).1 (by simp)
        subst hb
        simp at c1
  subst hc
  have h0 : LikData.fixedAt d 0 = false := by
    obtain ⟨p, hp, _, _, _, _, hpf⟩ := cp 0 (((0, 1, 0) : Slot), true) rfl
    unfold LikData.fixedAt
    rw [hp]
    cases hx : p.fixed
    · simp [hx]
    · exact absurd rfl (hpf.1 hx).1
  have h1 : LikData.fixedAt d 1 = false := by
    obtain ⟨p, hp, _, hpf, _⟩ := cf
    have hp' : d.params[1]? = some p := hp
    unfold LikData.fixedAt
    rw [hp']
    simp [hpf]
  refine ⟨d, hm, ⟨c1, c2, c3, c4, c8, c9, c10, c11, c12, c13, ⟨fun _ => false, ?_⟩, h1⟩, c3, h0, h1, ?_⟩
  · intro k c hk
    cases k with
    | zero => exact h0
    | succ k => simp at hk
  · rw [c7]

theorem exAmp {d : ParData} (hl : Layout exFn d [(((0, 1, 0) : Slot), true)]) (par : ℕ → ℝ) :
    exFn.amps par (0, 1, 0) = ((par 0 : ℝ) : ℂ) ∧ exFn.flat par = par 1 := by
  constructor
  · apply Complex.ext
    · have := hl.fromPar par 0 (((0, 1, 0) : Slot), true) rfl
      simpa [part, LikData.amps] using this
    · have := hl.fromZero par (0, 1, 0) false (by unfold Free; simp)
      simpa [part, LikData.amps] using this
  · exact hl.fromFlat par

theorem exSigma (V : Amps) (v f : ℝ) (hV : V (0, 1, 0) = (v : ℂ)) :
    exFn.sigma V f 0 = f * f ∧ exFn.sigma V f 1 = 4 * (v * v) + f * f := by
  constructor
  · simp [LikData.sigma, LikData.ampSum, exFn, exWaves]
  · simp [LikData.sigma, LikData.ampSum, exFn, exWaves, sum_range_succ, hV, normSq_apply]
    ring

theorem exDeriv (V : Amps) (v : ℝ) (hV : V (0, 1, 0) = (v : ℂ)) :
    exFn.evtDeriv V 0 (0, 1, 0) = 0 ∧ exFn.evtDeriv V 1 (0, 1, 0) = ((4 * v : ℝ) : ℂ) := by
  constructor
  · simp [LikData.evtDeriv, exFn]
  · simp [LikData.evtDeriv, LikData.ampSum, exFn, exWaves, hV, Complex.conj_ofNat]
    ring

/-- the Hessian of the example. -/
theorem exHessian {d : ParData} (hl : Layout exFn d [(((0, 1, 0) : Slot), true)]) (h0 : LikData.fixedAt d 0 = false) (par : ℕ → ℝ) :
    exFn.hessian d par 0 0 = (2 / (4 * (par 0 * par 0) + par 1 * par 1)) * (2 / (4 * (par 0 * par 0) + par 1 * par 1)) * (4 * par 0 * (4 * par 0))
        - 2 / (4 * (par 0 * par 0) + par 1 * par 1) * 4 + 4 ∧
    exFn.hessian d par 0 1 = (2 / (4 * (par 0 * par 0) + par 1 * par 1)) * (2 / (4 * (par 0 * par 0) + par 1 * par 1)) * par 1 * (4 * par 0) ∧
    exFn.hessian d par 1 0 = (2 / (4 * (par 0 * par 0) + par 1 * par 1)) * (2 / (4 * (par 0 * par 0) + par 1 * par 1)) * par 1 * (4 * par 0) ∧
    exFn.hessian d par 1 1 = (2 / (par 1 * par 1)) * (2 / (par 1 * par 1)) * (par 1 * par 1) - 2 / (par 1 * par 1)
      + ((2 / (4 * (par 0 * par 0) + par 1 * par 1)) * (2 / (4 * (par 0 * par 0) + par 1 * par 1)) * (par 1 * par 1)
        - 2 / (4 * (par 0 * par 0) + par 1 * par 1)) + 3 := by
  have hF : ∀ (k : ℕ) (c : Comp), [((((0, 1, 0) : Slot), true) : Comp)][k]? = some c → LikData.fixedAt d k = (fun _ : Slot => false) c.1 := by
    intro k c hk
    cases k with
    | zero => exact h0
    | succ k => simp at hk
  obtain ⟨a1, a2⟩ := exAmp hl par
  obtain ⟨s0, s1⟩ := exSigma (exFn.amps par) (par 0) (exFn.flat par) a1
  obtain ⟨d0, d1⟩ := exDeriv (exFn.amps par) (par 0) a1
  rw [a2] at s0 s1
  have hev : exFn.nmbEvents = 2 := rfl
  have hn : exFn.nmbEvt = 2 := by simp [LikData.nmbEvt, exFn]
  have ht : exFn.totAcc = 3 / 4 := rfl
  have hterms : exFn.flatTerms (exFn.amps par) (par 1) (0, 1, 0) =
      (((2 / (4 * (par 0 * par 0) + par 1 * par 1)) * (2 / (4 * (par 0 * par 0) + par 1 * par 1)) * par 1 * (4 * par 0) : ℝ) : ℂ) := by
    unfold LikData.flatTerms
    rw [hev, sum_range_succ, sum_range_one, s1, d0, d1]
    push_cast
    ring
  refine ⟨?_, ?_, ?_, ?_⟩
  · rw [hessian_entries hl (F := fun _ => false) hF par]
    simp only [List.getElem?_cons_zero, and_self, if_true, hessEntry]
    unfold LikData.hess
    dsimp only
    rw [hev, sum_range_succ, sum_range_one, a2, s0, s1, d0, d1, hn]
    simp [exFn]
    ring
  · rw [hessian_entries hl (F := fun _ => false) hF par]
    simp only [List.getElem?_cons_zero, List.getElem?_cons_succ, List.getElem?_nil, List.length_singleton, and_self, if_true]
    rw [a2, hterms]
    simp only [part, if_true, ofReal_re]
  · rw [hessian_entries hl (F := fun _ => false) hF par]
    simp only [List.getElem?_cons_zero, List.getElem?_cons_succ, List.getElem?_nil, List.length_singleton, and_self, if_true]
    rw [a2, hterms]
    simp only [part, if_true, ofReal_re]
  · rw [hessian_entries hl (F := fun _ => false) hF par]
    simp only [List.getElem?_cons_succ, List.getElem?_nil, List.length_singleton, and_self, if_true]
    unfold LikData.hessianFlat
    rw [hev, sum_range_succ, sum_range_one, a2, s0, s1, hn, ht]
    ring

/-- the point (1/2, 1) is stationary. -/
theorem exStationary {d : ParData} (hl : Layout exFn d [(((0, 1, 0) : Slot), true)]) (par : ℕ → ℝ) (p0 : par 0 = 1 / 2) (p1 : par 1 = 1) :
    ∀ k < 2, exFn.gradient d par (fun _ => 0) k = 0 := by
  obtain ⟨a1, a2⟩ := exAmp hl par
  intro k hk
  obtain ⟨s0, s1⟩ := exSigma (exFn.amps par) (par 0) (exFn.flat par) a1
  obtain ⟨d0, d1⟩ := exDeriv (exFn.amps par) (par 0) a1
  rw [a2, p0, p1] at s1
  rw [a2, p1] at s0
  have hev : exFn.nmbEvents = 2 := rfl
  have hne : exFn.nmbEvt = 2 := by simp [LikData.nmbEvt, exFn]
  have hk' : k = 0 ∨ k = 1 := by omega
  rcases hk' with rfl | rfl
  · have h3 := hl.toPar (exFn.derivatives (exFn.amps par) (exFn.flat par)) (exFn.derivativeFlat (exFn.amps par) (exFn.flat par)) (fun _ => 0) 0
      (((0, 1, 0) : Slot), true) rfl
    refine h3.trans ?_
    unfold LikData.derivatives
    simp only [part, if_true]
    rw [hev, sum_range_succ, sum_range_one, a2, p1, s0, s1, d0, d1, hne, p0]
    have h4 : exFn.priorDeriv (exFn.amps par) (0, 1, 0) = 0 := rfl
    rw [h4]
    have h5 : exFn.amps par (0, 1, 0) = ((1 / 2 : ℝ) : ℂ) := by rw [a1, p0]
    simp [exFn, exWaves]
    have h6 : (exFn.amps par (0, 1, 0)).re = 1 / 2 := by rw [h5, ofReal_re]
    unfold exFn exWaves at h6
    simp at h6
    rw [h6]
    norm_num
  · have h3 := hl.toFlat (exFn.derivatives (exFn.amps par) (exFn.flat par)) (exFn.derivativeFlat (exFn.amps par) (exFn.flat par)) (fun _ => 0)
    refine h3.trans ?_
    unfold LikData.derivativeFlat
    rw [hev, sum_range_succ, sum_range_one, a2, p1, s0, s1, hne]
    simp [exFn]
    norm_num

/-- where the minimizer ends: the flat amplitude is negative. -/
noncomputable def exX : ℕ → ℝ := fun k => if k = 0 then 1 / 2 else -1

/-- the covariance matrix of the minimizer: twice the inverse of the Hessian `((4, -2), (-2, 5))`. -/
noncomputable def exCov : ℕ → ℕ → ℝ := fun i j => if i = 0 ∧ j = 0 then 10 / 16 else if i = 1 ∧ j = 1 then 8 / 16 else 4 / 16

/-- **C60, covariance matrix (false of the code).** A fit with one wave and two events, whose minimum has a negative flat amplitude: the
stored covariance matrix is not the inverse of the Hessian at the stored parameters.  The correlation of the two parameters has the
wrong sign. -/
theorem pwaFit_covariance_wrong : ∃ (l : Lik) (minimize : List Var → MinResult) (a : FillArgs) (par : ℕ → ℝ) (slots : List Slot) (c : Mat ℝ),
    l.fn.Matches l.waves l.pars 1 ∧ MinimizerOk l minimize ∧ (∀ vars, (minimize vars).converged = true ∧ (minimize vars).hesse = true) ∧
    (∀ eig rnd, pwaFit minimize eig rnd l ⟨false, false⟩ [] none = .ok a) ∧ a.converged = true ∧ Stored l par slots a ∧
    (∀ k < 2, l.fn.gradient l.pars par (fun _ => 0) k = 0) ∧ a.cov = some c ∧ ¬ InverseOnFree l.pars (l.fn.hessian l.pars par) c.entry ∧
    c.entry 0 1 = 1 / 8 ∧ InverseOnFree l.pars (l.fn.hessian l.pars par) fun i j => if i = j then c.entry i j else -c.entry i j := by
  obtain ⟨d, hm, hl, hn, f0, f1, hfix⟩ := exLayout
  let l : Lik := ⟨exFn, exWaves, d, ⟨⟨fun _ _ => 1, fun _ _ => 1⟩, fun _ => 1, 3 / 4⟩⟩
  let res : MinResult := ⟨true, exX, exFn.doEval exX, true, exCov⟩
  have hfree : (Finset.range d.nmbPars).filter (fun j => LikData.fixedAt d j = false) = {0, 1} := by
    rw [hn]
    ext j
    simp only [Finset.mem_filter, Finset.mem_range, Finset.mem_insert, Finset.mem_singleton]
    constructor
    · rintro ⟨h, _⟩; omega
    · rintro (rfl | rfl)
      · exact ⟨by omega, f0⟩
      · exact ⟨by omega, f1⟩
  have hinv : ∀ H B : ℕ → ℕ → ℝ, InverseOnFree d H B ↔ (H 0 0 * B 0 0 + H 0 1 * B 1 0 = 1 ∧ H 0 0 * B 0 1 + H 0 1 * B 1 1 = 0 ∧
      H 1 0 * B 0 0 + H 1 1 * B 1 0 = 0 ∧ H 1 0 * B 0 1 + H 1 1 * B 1 1 = 1) := by
    intro H B
    unfold InverseOnFree
    rw [hfree]
    simp only [Finset.sum_pair (show (0 : ℕ) ≠ 1 by omega), hn]
    constructor
    · intro h
      have h1 := h 0 0 (by omega) (by omega) f0 f0
      have h2 := h 0 1 (by omega) (by omega) f0 f1
      have h3 := h 1 0 (by omega) (by omega) f1 f0
      have h4 := h 1 1 (by omega) (by omega) f1 f1
      simp at h1 h2 h3 h4
      exact ⟨h1, h2, h3, h4⟩
    · rintro ⟨h1, h2, h3, h4⟩ i k hi hk _ _
      have hi' : i = 0 ∨ i = 1 := by omega
      have hk' : k = 0 ∨ k = 1 := by omega
      rcases hi' with rfl | rfl <;> rcases hk' with rfl | rfl <;> simp [h1, h2, h3, h4]
  have hmin : MinimizerOk l (fun _ => res) := by
    refine ⟨fun _ _ => rfl, ?_, ?_⟩
    · intro vars i v hmap hi hv
      exfalso
      have h1 : (vars.map (·.fixed))[i]? = some true := by rw [List.getElem?_map, hi]; exact congrArg some hv
      rw [hmap, List.getElem?_map] at h1
      have h2 : LikData.fixedAt d i = true := by
        unfold LikData.fixedAt
        have h1' : (d.params[i]?).map (·.fixed) = some true := h1
        rw [h1']; rfl
      have hlt : i < 2 := by
        have h3 : i < (d.params.map (·.fixed)).length := by
          by_contra hc
          have : (d.params.map (·.fixed))[i]? = none := List.getElem?_eq_none (by omega)
          rw [List.getElem?_map] at this
          have h1' : (d.params[i]?).map (·.fixed) = some true := h1
          rw [h1'] at this; cases this
        rw [List.length_map, hl.len, hn] at h3
        exact h3
      have hi' : i = 0 ∨ i = 1 := by omega
      rcases hi' with rfl | rfl
      · rw [f0] at h2; cases h2
      · rw [f1] at h2; cases h2
    · intro vars _ _
      show InverseOnFree d (exFn.hessian d exX) fun i j => exCov i j / 2
      obtain ⟨e1, e2, e3, e4⟩ := exHessian hl f0 exX
      rw [hinv, e1, e2, e3, e4]
      simp [exX, exCov]
      norm_num
  obtain ⟨par, h2⟩ := correctParamSigns_returns exFn d exX (by simp [exFn, exWaves])
  obtain ⟨a1, a2⟩ := exAmp hl par
  obtain ⟨eps, eta, g1, g2, g3, g4, g5⟩ := correct_signs exFn hl _ _ h2
  obtain ⟨v1, v2⟩ := correctParamSigns_convention exFn exWaves d 1 hm _ _ h2
  have hsq : ∀ i, parSign [(((0, 1, 0) : Slot), true)] eps eta i * parSign [(((0, 1, 0) : Slot), true)] eps eta i = 1 := by
    intro i; unfold parSign; split
    · exact g1 _ _
    · exact g2
  have p0 : par 0 = 1 / 2 := by
    have h3 := (v2 0 1 (by simp [exFn]) (by omega) (by simp [exFn, exWaves])).1
    rw [a1] at h3
    simp only [ofReal_re] at h3
    have h4 := g5 0 (by omega)
    have h5 := hsq 0
    generalize parSign [(((0, 1, 0) : Slot), true)] eps eta 0 = x at *
    simp only [exX, if_true] at h4
    have h6 : par 0 * par 0 = 1 / 4 := by rw [h4]; linear_combination h5 / 4
    nlinarith only [h6, h3]
  have p1 : par 1 = 1 := by
    rw [a2] at v1
    have h4 := g5 1 (by omega)
    have h5 := hsq 1
    generalize parSign [(((0, 1, 0) : Slot), true)] eps eta 1 = x at *
    simp only [exX, if_neg (show ¬ (1 : ℕ) = 0 by omega)] at h4
    have h6 : par 1 * par 1 = 1 := by rw [h4]; linear_combination h5
    nlinarith only [h6, v1]
  obtain ⟨slots, hs⟩ := stored_of_fill l 1 hm ⟨false, false⟩ [] par (exFn.doEval exX) (fun i j => 0.5 * exCov i j) true true
  have hfit : ∀ eig rnd, pwaFit (fun _ => res) eig rnd l ⟨false, false⟩ [] none =
      .ok (fillFitResult l ⟨false, false⟩ [] par (exFn.doEval exX) (fun i j => 0.5 * exCov i j) true true) := by
    intro eig rnd
    have h3 : res.minValue = l.fn.doEval par := (correctParamSigns_same_likelihood exFn exWaves d 1 hm _ _ h2).symm
    unfold pwaFit readStart
    simp only [Outcome.ok_bind]
    have h2' : correctParamSigns l.fn.rank l.fn.nW l.pars res.x = .ok par := h2
    rw [h2', Outcome.ok_bind, if_neg (not_not.2 h3)]
    rfl
  obtain ⟨e1, e2, e3, e4⟩ := exHessian hl f0 par
  rw [p0, p1] at e1 e2 e3 e4
  refine ⟨l, fun _ => res, _, par, slots, ⟨d.nmbPars, d.nmbPars, fun i j => 0.5 * exCov i j⟩, hm, hmin, fun _ => ⟨rfl, rfl⟩, hfit, rfl, hs, ?_, rfl, ?_, ?_, ?_⟩
  · exact exStationary hl par p0 p1
  · show ¬ InverseOnFree d (exFn.hessian d par) fun i j => 0.5 * exCov i j
    rw [hinv, e1, e2, e3, e4]
    rintro ⟨_, h, _⟩
    simp [exCov] at h
    norm_num at h
  · simp [exCov]
    norm_num
  · show InverseOnFree d (exFn.hessian d par) fun i j => if i = j then 0.5 * exCov i j else -(0.5 * exCov i j)
    rw [hinv, e1, e2, e3, e4]
    simp [exCov]
    norm_num

end Rpwa.PwaFit

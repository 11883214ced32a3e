import Verif.Lemmas.PwaFit
import Verif.Props.Covariance
import Verif.Props.FitRefill
/-! # C60: the result of a partial-wave fit -/
namespace Rpwa.PwaFit

open Rpwa.Lik Rpwa.Fit

theorem fixWaves_keeps (empty : List String) (d : ParData) : (empty.foldl fixWave d).map = d.map ∧ (empty.foldl fixWave d).nmbPars = d.nmbPars := by
  induction empty generalizing d with
  | nil => exact ⟨rfl, rfl⟩
  | cons a l ih => exact ih (fixWave d a)

/-- the data handed to `fill` belong to the parameters. -/
theorem stored_of_fill_slots (l : Lik) (m : ℝ) (hm : l.fn.Matches l.waves l.pars m) (o : Options) (bin : List (Name × ℝ × ℝ)) (par : ℕ → ℝ)
    (v : ℝ) (cov : ℕ → ℕ → ℝ) (c h : Bool) : Stored l par (ampSlots l.fn.rank l.fn.nW) (fillFitResult l o bin par v cov c h) := by
  obtain ⟨d0, empty, hb, hflat, hd⟩ := hm.built
  obtain ⟨k1, k2⟩ := fixWaves_keeps empty d0
  rw [← hd] at k1 k2
  obtain ⟨s1, s2, s3, s4⟩ := buildProdAmpArrays_slots l.waves l.fn.rank m d0 hb par
  rw [← k1, ← k2] at s3
  rw [← k1] at s4
  rw [← hm.waves] at s1 s2 s3 s4
  set slots := ampSlots l.fn.rank l.fn.nW with hslots
  have hn : 0 < l.pars.nmbPars := by
    obtain ⟨comp, hl⟩ := layout_of_matches l.fn hm
    have := hl.nmb
    omega
  have hget : ∀ (i : ℕ) (s : Slot), slots[i]? = some s → (buildProdAmpArrays l.waves l.fn.rank par true)[i]? =
      some (⟨l.fn.amps par s, (((l.pars.map s).1).getD 0, (l.pars.map s).2), ampName l.waves s⟩ : ProdAmp) := by
    intro i s hi
    have hlt := (List.getElem?_eq_some_iff.1 hi).1
    rw [s3, List.getElem?_append_left (by simpa using hlt), List.getElem?_map, hi]
    rfl
  have hlast : (buildProdAmpArrays l.waves l.fn.rank par true)[slots.length]? =
      some (⟨⟨l.fn.flat par, 0⟩, (l.pars.nmbPars - 1, none), "V_flat"⟩ : ProdAmp) := by
    rw [s3, List.getElem?_append_right (by simp)]
    simp [LikData.flat]
  have hlen : (buildProdAmpArrays l.waves l.fn.rank par true).length = slots.length + 1 := by rw [s3]; simp
  constructor
  · rfl
  · rfl
  · rfl
  · exact s1
  · exact s2
  · exact ⟨hlen, hlen⟩
  · show (buildProdAmpArrays l.waves l.fn.rank par true).map (fun a => a.name.toList) = _
    rw [s3]
    simp [ampName, Function.comp_def]
  · intro i s hi
    show (((buildProdAmpArrays l.waves l.fn.rank par true)[i]?).map ProdAmp.value).getD 0 = _
    rw [hget i s hi]
    rfl
  · show (((buildProdAmpArrays l.waves l.fn.rank par true)[slots.length]?).map ProdAmp.value).getD 0 = _
    rw [hlast]
    rfl
  · intro i s hi
    obtain ⟨k, hk⟩ := Option.isSome_iff_exists.1 (s4 s (List.mem_of_getElem? hi))
    refine ⟨k, hk, ?_⟩
    show (((buildProdAmpArrays l.waves l.fn.rank par true)[i]?).map fun a => covIndex a.parIndices).getD (0, 0) = _
    rw [hget i s hi]
    simp only [Option.map_some, Option.getD_some, covIndex, hk]
    cases (l.pars.map s).2 <;> rfl
  · show (((buildProdAmpArrays l.waves l.fn.rank par true)[slots.length]?).map fun a => covIndex a.parIndices).getD (0, 0) = _
    rw [hlast]
    simp only [Option.map_some, Option.getD_some, covIndex]
    congr 1
    omega

theorem stored_of_fill (l : Lik) (m : ℝ) (hm : l.fn.Matches l.waves l.pars m) (o : Options) (bin : List (Name × ℝ × ℝ)) (par : ℕ → ℝ)
    (v : ℝ) (cov : ℕ → ℕ → ℝ) (c h : Bool) : ∃ slots, Stored l par slots (fillFitResult l o bin par v cov c h) :=
  ⟨_, stored_of_fill_slots l m hm o bin par v cov c h⟩

/-! ### inversion of the two functions -/

theorem pwaFit_ok (minimize : List Var → MinResult) (eig : ℕ → (ℕ → ℕ → ℝ) → ℕ → (ℕ → ℝ) × ℝ) (rnd : ℕ → ℝ) (l : Lik) (o : Options)
    (bin : List (Name × ℝ × ℝ)) (file : Option StartFile) (a : FillArgs) (h : pwaFit minimize eig rnd l o bin file = .ok a) :
    ∃ start par, readStart file bin = .ok start ∧
      correctParamSigns l.fn.rank l.fn.nW l.pars (minimize (startValues rnd l.fn.nmbEvents start l.pars.params)).x = .ok par ∧
      (minimize (startValues rnd l.fn.nmbEvents start l.pars.params)).minValue = l.fn.doEval par ∧
      ∃ bad, hessianCheck eig l o par = .ok bad ∧
        a = fillFitResult l o bin par (minimize (startValues rnd l.fn.nmbEvents start l.pars.params)).minValue
          (fun i j => 0.5 * (minimize (startValues rnd l.fn.nmbEvents start l.pars.params)).cov i j)
          ((minimize (startValues rnd l.fn.nmbEvents start l.pars.params)).converged && !bad &&
            (o.saveSpace || (minimize (startValues rnd l.fn.nmbEvents start l.pars.params)).hesse))
          (!o.saveSpace && (minimize (startValues rnd l.fn.nmbEvents start l.pars.params)).hesse) := by
  unfold pwaFit at h
  obtain ⟨start, h1, h⟩ := Outcome.bind_eq_ok.1 h
  obtain ⟨par, h2, h⟩ := Outcome.bind_eq_ok.1 h
  split_ifs at h with h3
  rw [not_not] at h3
  obtain ⟨bad, h4, h⟩ := Outcome.bind_eq_ok.1 h
  cases h
  exact ⟨start, par, h1, h2, h3, bad, h4, rfl⟩

/-! ### start values -/

/-- what the loop over the parameters sets. -/
def StartOk (rnd : ℕ → ℝ) (sqrtN : ℝ) (start : Option FitResult) (p : FitPar) (v : Var) : Prop :=
  v.name = p.parName ∧ v.fixed = p.fixed ∧ (p.fixed = true → v.value = 0) ∧
  (p.fixed = false →
    (∃ r, start = some r ∧ fitParameter r p.parName.toList ≠ 0 ∧ v.value = fitParameter r p.parName.toList) ∨
    ((∀ r, start = some r → fitParameter r p.parName.toList = 0) ∧ ∃ k, v.value = randomStart rnd sqrtN k))

theorem startStep_ok (rnd : ℕ → ℝ) (sqrtN : ℝ) (start : Option FitResult) (st : ℕ × List Var) (p : FitPar) :
    ∃ k v, startStep rnd sqrtN start st p = (k, st.2 ++ [v]) ∧ StartOk rnd sqrtN start p v := by
  unfold startStep
  cases start with
  | some r =>
    simp only
    by_cases hf : p.fixed = true
    · rw [if_pos hf]
      exact ⟨_, _, rfl, rfl, hf.symm, fun _ => rfl, fun h => (by rw [hf] at h; cases h)⟩
    · rw [if_neg hf]
      rw [Bool.not_eq_true] at hf
      by_cases h0 : fitParameter r p.parName.toList = 0
      · rw [if_pos h0]
        refine ⟨_, _, rfl, rfl, hf.symm, fun h => (by rw [hf] at h; cases h), fun _ => Or.inr ⟨?_, _, rfl⟩⟩
        rintro r' hr; cases hr; exact h0
      · rw [if_neg h0]
        exact ⟨_, _, rfl, rfl, hf.symm, fun h => (by rw [hf] at h; cases h), fun _ => Or.inl ⟨r, rfl, h0, rfl⟩⟩
  | none =>
    simp only
    by_cases hf : p.fixed = true
    · rw [if_pos hf]
      exact ⟨_, _, rfl, rfl, hf.symm, fun _ => rfl, fun h => (by rw [hf] at h; cases h)⟩
    · rw [if_neg hf]
      rw [Bool.not_eq_true] at hf
      by_cases h0 : randomStart rnd sqrtN st.1 = 0
      · rw [if_pos h0]
        exact ⟨_, _, rfl, rfl, hf.symm, fun h => (by rw [hf] at h; cases h), fun _ => Or.inr ⟨(by rintro r' hr; cases hr), _, rfl⟩⟩
      · rw [if_neg h0]
        exact ⟨_, _, rfl, rfl, hf.symm, fun h => (by rw [hf] at h; cases h), fun _ => Or.inr ⟨(by rintro r' hr; cases hr), _, rfl⟩⟩

/-- **C61, start values.** Every parameter of the likelihood gets one variable, with its name: fixed parameters are fixed at 0; a free
parameter starts at the value of the earlier fit if that is not zero, and at a random value otherwise. -/
theorem startValues_spec (rnd : ℕ → ℝ) (n : ℕ) (start : Option FitResult) (params : List FitPar) :
    (startValues rnd n start params).length = params.length ∧
    ∀ (i : ℕ) (p : FitPar), params[i]? = some p → ∃ v, (startValues rnd n start params)[i]? = some v ∧ StartOk rnd (Real.sqrt n) start p v := by
  unfold startValues
  induction params using List.reverseRecOn with
  | nil => simp
  | append_singleton ps q ih =>
    obtain ⟨ih1, ih2⟩ := ih
    rw [List.foldl_append]
    simp only [List.foldl_cons, List.foldl_nil]
    obtain ⟨k, v, h1, h2⟩ := startStep_ok rnd (Real.sqrt n) start (ps.foldl (startStep rnd (Real.sqrt n) start) (0, [])) q
    rw [h1]
    refine ⟨by simp [ih1], ?_⟩
    intro i p hi
    by_cases hlt : i < ps.length
    · rw [List.getElem?_append_left hlt] at hi
      obtain ⟨v', e1, e2⟩ := ih2 i p hi
      exact ⟨v', by rw [List.getElem?_append_left (by rw [ih1]; exact hlt)]; exact e1, e2⟩
    · have hi' : i = ps.length := by
        have := (List.getElem?_eq_some_iff.1 hi).1
        simp at this; omega
      subst hi'
      rw [List.getElem?_concat_length] at hi
      cases hi
      refine ⟨v, ?_, h2⟩
      rw [← ih1, List.getElem?_concat_length]

theorem startValues_fixed (rnd : ℕ → ℝ) (n : ℕ) (start : Option FitResult) (params : List FitPar) :
    (startValues rnd n start params).map (·.fixed) = params.map (·.fixed) := by
  obtain ⟨h1, h2⟩ := startValues_spec rnd n start params
  apply List.ext_getElem?
  intro i
  rw [List.getElem?_map, List.getElem?_map]
  cases hp : params[i]? with
  | none =>
    have := List.getElem?_eq_none_iff.1 hp
    rw [List.getElem?_eq_none (by omega)]
    rfl
  | some p =>
    obtain ⟨v, e1, _, e2, _⟩ := h2 i p hp
    rw [e1]
    exact congrArg some e2

/-- **C61, random start values** lie between 0.01 and the square root of the number of events, with either sign. -/
theorem randomStart_bounds (rnd : ℕ → ℝ) (hr : ∀ k, 0 ≤ rnd k ∧ rnd k < 1) (n : ℕ) (hn : 0 < n) (k : ℕ) :
    0.01 ≤ |randomStart rnd (Real.sqrt n) k| ∧ |randomStart rnd (Real.sqrt n) k| ≤ Real.sqrt n := by
  have h1 : (1 : ℝ) ≤ Real.sqrt n := by
    rw [Real.one_le_sqrt]; exact_mod_cast hn
  have hv : |randomStart rnd (Real.sqrt n) k| = 0.01 + (Real.sqrt n - 0.01) * rnd k := by
    have h0 : 0 ≤ 0.01 + (Real.sqrt n - 0.01) * rnd k := by
      have := mul_nonneg (show 0 ≤ Real.sqrt n - 0.01 by linarith only [h1, show (0.01 : ℝ) ≤ 1 by norm_num]) (hr k).1
      have h2 : (0 : ℝ) ≤ 0.01 := by norm_num
      linarith only [this, h2]
    unfold randomStart
    simp only
    split_ifs
    · rw [abs_neg, abs_of_nonneg h0]
    · rw [abs_of_nonneg h0]
  rw [hv]
  have h2 : 0 ≤ Real.sqrt n - 0.01 := by linarith only [h1, show (0.01 : ℝ) ≤ 1 by norm_num]
  constructor
  · have := mul_nonneg h2 (hr k).1
    linarith only [this]
  · have := mul_le_mul_of_nonneg_left (hr k).2.le h2
    linarith only [this]

/-! ### the result -/

/-- fixed parameters stay at zero. -/
theorem fixed_zero (l : Lik) (m : ℝ) (hm : l.fn.Matches l.waves l.pars m) (minimize : List Var → MinResult) (hmin : MinimizerOk l minimize)
    (rnd : ℕ → ℝ) (start : Option FitResult) (i : ℕ) (hi : i < l.pars.nmbPars) (hf : LikData.fixedAt l.pars i = true) :
    (minimize (startValues rnd l.fn.nmbEvents start l.pars.params)).x i = 0 := by
  obtain ⟨comp, hl⟩ := layout_of_matches l.fn hm
  have hlt : i < l.pars.params.length := by rw [hl.len]; exact hi
  obtain ⟨v, hv, h1, h2, h3, _⟩ := (startValues_spec rnd l.fn.nmbEvents start l.pars.params).2 i l.pars.params[i] (List.getElem?_eq_getElem hlt)
  have hp : l.pars.params[i].fixed = true := by
    unfold LikData.fixedAt at hf
    rw [List.getElem?_eq_getElem hlt] at hf
    simpa using hf
  rw [hmin.hfixed _ i v (startValues_fixed _ _ _ _) hv (h2.trans hp), h3 hp]

/-- **C60, what is stored.** Whatever the minimizer does, the result that a fit returns is consistent: amplitudes, names, parameter indices
and likelihood belong to one set of parameters, which obeys the sign convention, is zero for switched-off waves, and differs from the
minimum that was found only by signs that no observable can see. -/
theorem pwaFit_result (l : Lik) (m : ℝ) (hm : l.fn.Matches l.waves l.pars m) (minimize : List Var → MinResult) (hmin : MinimizerOk l minimize)
    (eig : ℕ → (ℕ → ℕ → ℝ) → ℕ → (ℕ → ℝ) × ℝ) (rnd : ℕ → ℝ) (o : Options) (bin : List (Name × ℝ × ℝ)) (file : Option StartFile)
    (a : FillArgs) (h : pwaFit minimize eig rnd l o bin file = .ok a) :
    ∃ start par slots, readStart file bin = .ok start ∧ Stored l par slots a ∧ Convention l par ∧ a.multibin = bin ∧
      a.logLikelihood = l.fn.doEval par ∧
      (∀ i < l.pars.nmbPars, LikData.fixedAt l.pars i = true → par i = 0) ∧
      (∀ i < l.pars.nmbPars, |par i| = |(minimize (startValues rnd l.fn.nmbEvents start l.pars.params)).x i|) ∧
      ∀ r e i j, i < l.fn.nW e → j < l.fn.nW e →
        l.fn.amps par (r, e, i) * (starRingEnd ℂ) (l.fn.amps par (r, e, j)) =
          l.fn.amps (minimize (startValues rnd l.fn.nmbEvents start l.pars.params)).x (r, e, i) *
            (starRingEnd ℂ) (l.fn.amps (minimize (startValues rnd l.fn.nmbEvents start l.pars.params)).x (r, e, j)) := by
  obtain ⟨start, par, h1, h2, h3, bad, h4, ha⟩ := pwaFit_ok minimize eig rnd l o bin file a h
  obtain ⟨slots, hs⟩ := stored_of_fill l m hm o bin par _ _ _ _
  rw [← ha] at hs
  obtain ⟨comp, hl⟩ := layout_of_matches l.fn hm
  obtain ⟨eps, eta, g1, g2, g3, g4, g5⟩ := correct_signs l.fn hl _ _ h2
  have hsq : ∀ i, parSign comp eps eta i * parSign comp eps eta i = 1 := by
    intro i; unfold parSign; split
    · exact g1 _ _
    · exact g2
  refine ⟨start, par, slots, h1, hs, correctParamSigns_convention l.fn l.waves l.pars m hm _ _ h2, ?_, ?_, ?_, ?_, ?_⟩
  · rw [ha]; rfl
  · rw [ha]; exact h3
  · intro i hi hf
    rw [g5 i hi, fixed_zero l m hm minimize hmin rnd start i hi hf, mul_zero]
  · intro i hi
    rw [g5 i hi, abs_mul]
    have : |parSign comp eps eta i| = 1 := by
      have h5 := abs_mul_abs_self (parSign comp eps eta i)
      rw [hsq] at h5
      nlinarith only [abs_nonneg (parSign comp eps eta i), h5]
    rw [this, one_mul]
  · intro r e i j hi hj
    exact correctParamSigns_keeps_phases l.fn l.waves l.pars m hm _ _ h2 r e i j hi hj

/-- **C60, a fit returns** a result if the rank is at most the number of waves of one reflectivity, a start file comes with a mass bin,
and the number of fixed parameters is counted correctly. -/
theorem pwaFit_returns (l : Lik) (m : ℝ) (hm : l.fn.Matches l.waves l.pars m) (minimize : List Var → MinResult) (hmin : MinimizerOk l minimize)
    (eig : ℕ → (ℕ → ℕ → ℝ) → ℕ → (ℕ → ℝ) × ℝ) (rnd : ℕ → ℝ) (o : Options) (bin : List (Name × ℝ × ℝ)) (file : Option StartFile)
    (hrank : l.fn.rank ≤ max (l.fn.nW 0) (l.fn.nW 1)) (hfile : file = none ∨ (bin.lookup "mass".toList).isSome = true)
    (hfix : l.pars.nmbParsFixed = (l.pars.params.filter (·.fixed)).length) : ∃ a, pwaFit minimize eig rnd l o bin file = .ok a := by
  have hst : ∃ start, readStart file bin = .ok start := by
    unfold readStart
    cases file with
    | none => exact ⟨_, rfl⟩
    | some f =>
      rcases hfile with hf | hf
      · cases hf
      · obtain ⟨b, hb⟩ := Option.isSome_iff_exists.1 hf
        rw [hb]
        cases f <;> exact ⟨_, rfl⟩
  obtain ⟨start, h1⟩ := hst
  obtain ⟨par, h2⟩ := correctParamSigns_returns l.fn l.pars (minimize (startValues rnd l.fn.nmbEvents start l.pars.params)).x hrank
  have h3 : (minimize (startValues rnd l.fn.nmbEvents start l.pars.params)).minValue = l.fn.doEval par := by
    rw [hmin.hvalue _ (startValues_fixed _ _ _ _), correctParamSigns_same_likelihood l.fn l.waves l.pars m hm _ _ h2]
  have h4 : ∃ bad, hessianCheck eig l o par = .ok bad := by
    unfold hessianCheck
    split_ifs
    · obtain ⟨comp, hl⟩ := layout_of_matches l.fn hm
      obtain ⟨M, hM, _⟩ := reduceMatrix_eq l.pars hl.len (le_of_eq hfix) (l.fn.hessian l.pars par)
      unfold badEigenvalue hessianEigenVectors
      rw [hM]
      exact ⟨_, rfl⟩
    · exact ⟨_, rfl⟩
  obtain ⟨bad, h4⟩ := h4
  unfold pwaFit
  rw [h1, Outcome.ok_bind]
  simp only [h2, Outcome.ok_bind]
  rw [if_neg (not_not.2 h3), h4]
  exact ⟨_, rfl⟩

/-- **C60, converged.** A result is marked as converged exactly if the minimizer reports success, no eigenvalue of the Hessian at the stored
parameters is zero or negative (if that was asked for), and the covariance matrix could be computed (unless space is to be saved). -/
theorem pwaFit_converged (l : Lik) (minimize : List Var → MinResult)
    (eig : ℕ → (ℕ → ℕ → ℝ) → ℕ → (ℕ → ℝ) × ℝ) (rnd : ℕ → ℝ) (o : Options) (bin : List (Name × ℝ × ℝ)) (file : Option StartFile)
    (a : FillArgs) (h : pwaFit minimize eig rnd l o bin file = .ok a) :
    ∃ start par, readStart file bin = .ok start ∧
      correctParamSigns l.fn.rank l.fn.nW l.pars (minimize (startValues rnd l.fn.nmbEvents start l.pars.params)).x = .ok par ∧
      (a.converged = true ↔ (minimize (startValues rnd l.fn.nmbEvents start l.pars.params)).converged = true ∧
        (o.checkHessian = true → ∃ E, hessianEigenVectors eig l.pars (l.fn.hessian l.pars par) = .ok E ∧ ∀ e ∈ E, 0 < e.2) ∧
        (o.saveSpace = false → (minimize (startValues rnd l.fn.nmbEvents start l.pars.params)).hesse = true)) := by
  obtain ⟨start, par, h1, h2, h3, bad, h4, ha⟩ := pwaFit_ok minimize eig rnd l o bin file a h
  refine ⟨start, par, h1, h2, ?_⟩
  have hb : bad = false ↔ (o.checkHessian = true → ∃ E, hessianEigenVectors eig l.pars (l.fn.hessian l.pars par) = .ok E ∧ ∀ e ∈ E, 0 < e.2) := by
    unfold hessianCheck at h4
    split_ifs at h4 with hc
    · unfold badEigenvalue at h4
      obtain ⟨E, hE, h5⟩ := Outcome.bind_eq_ok.1 h4
      cases h5
      rw [List.any_eq_false]
      constructor
      · intro h6 _
        exact ⟨E, hE, fun e he => by simpa using h6 e he⟩
      · intro h6 e he
        obtain ⟨E', hE', h7⟩ := h6 hc
        rw [hE] at hE'; cases hE'
        simpa using h7 e he
    · cases h4
      simp [hc]
  rw [← hb, ha]
  show (_ && _ && _) = true ↔ _
  cases (minimize (startValues rnd l.fn.nmbEvents start l.pars.params)).converged <;> cases bad <;> cases o.saveSpace <;>
    cases (minimize (startValues rnd l.fn.nmbEvents start l.pars.params)).hesse <;> simp

/-- **C60, covariance matrix (false of the code).** Without `saveSpace` the stored covariance matrix is the inverse of the Hessian at the
minimum *before* the sign correction: compared to the inverse of the Hessian at the stored parameters, the rows and columns of all
parameters of a flipped block have the wrong sign. -/
theorem pwaFit_covariance_partial (l : Lik) (m : ℝ) (hm : l.fn.Matches l.waves l.pars m) (minimize : List Var → MinResult)
    (hmin : MinimizerOk l minimize) (eig : ℕ → (ℕ → ℕ → ℝ) → ℕ → (ℕ → ℝ) × ℝ) (rnd : ℕ → ℝ) (o : Options) (bin : List (Name × ℝ × ℝ))
    (file : Option StartFile) (a : FillArgs) (h : pwaFit minimize eig rnd l o bin file = .ok a) (hs : o.saveSpace = false)
    (start : Option FitResult) (hstart : readStart file bin = .ok start)
    (hh : (minimize (startValues rnd l.fn.nmbEvents start l.pars.params)).hesse = true) :
    ∃ (par : ℕ → ℝ) (s : ℕ → ℝ) (c : Mat ℝ),
      correctParamSigns l.fn.rank l.fn.nW l.pars (minimize (startValues rnd l.fn.nmbEvents start l.pars.params)).x = .ok par ∧
      (∀ k < l.pars.nmbPars, s k * s k = 1 ∧ par k = s k * (minimize (startValues rnd l.fn.nmbEvents start l.pars.params)).x k) ∧
      a.cov = some c ∧ c.nRows = l.pars.nmbPars ∧ c.nCols = l.pars.nmbPars ∧
      InverseOnFree l.pars (l.fn.hessian l.pars par) fun i j => s i * s j * c.entry i j := by
  obtain ⟨start', par, h1, h2, h3, bad, h4, ha⟩ := pwaFit_ok minimize eig rnd l o bin file a h
  rw [hstart] at h1; cases h1
  obtain ⟨comp, hl⟩ := layout_of_matches l.fn hm
  obtain ⟨eps, eta, g1, g2, g3, g4, g5⟩ := correct_signs l.fn hl _ _ h2
  have hsq : ∀ i, parSign comp eps eta i * parSign comp eps eta i = 1 := by
    intro i; unfold parSign; split
    · exact g1 _ _
    · exact g2
  refine ⟨par, parSign comp eps eta,
    ⟨l.pars.nmbPars, l.pars.nmbPars, fun i j => 0.5 * (minimize (startValues rnd l.fn.nmbEvents start l.pars.params)).cov i j⟩, h2,
    fun k hk => ⟨hsq k, g5 k hk⟩, ?_, rfl, rfl, ?_⟩
  · rw [ha]
    unfold fillFitResult
    simp [hs]
  · have hinv := hmin.hcov _ (startValues_fixed _ _ _ _) hh
    intro i k hi hk hfi hfk
    have := hinv i k hi hk hfi hfk
    simp only
    have hterm : ∀ j, l.fn.hessian l.pars par i j * (parSign comp eps eta j * parSign comp eps eta k *
        (0.5 * (minimize (startValues rnd l.fn.nmbEvents start l.pars.params)).cov j k)) =
        parSign comp eps eta i * parSign comp eps eta k *
          (l.fn.hessian l.pars (minimize (startValues rnd l.fn.nmbEvents start l.pars.params)).x i j *
            ((minimize (startValues rnd l.fn.nmbEvents start l.pars.params)).cov j k / 2)) := by
      intro j
      rw [hessian_signs l.fn hl _ _ eps eta g1 g2 g3 g4 i j]
      linear_combination (parSign comp eps eta i * parSign comp eps eta k * l.fn.hessian l.pars (minimize (startValues rnd l.fn.nmbEvents start l.pars.params)).x i j * (minimize (startValues rnd l.fn.nmbEvents start l.pars.params)).cov j k / 2) * hsq j
    rw [Finset.sum_congr rfl fun j _ => hterm j, ← Finset.mul_sum, this]
    split_ifs with hik
    · subst hik; rw [hsq, one_mul]
    · rw [mul_zero]

/-- Finding: without `saveSpace` the result claims to have the Hessian even if its calculation has failed: `fill` sets the flag because
the (meaningless) matrix is not empty. -/
theorem pwaFit_hasHessian_always (l : Lik) (m : ℝ) (hm : l.fn.Matches l.waves l.pars m) (minimize : List Var → MinResult)
    (eig : ℕ → (ℕ → ℕ → ℝ) → ℕ → (ℕ → ℝ) × ℝ) (rnd : ℕ → ℝ) (o : Options) (bin : List (Name × ℝ × ℝ)) (file : Option StartFile)
    (a : FillArgs) (h : pwaFit minimize eig rnd l o bin file = .ok a) (hs : o.saveSpace = false) :
    (FitResult.new.fillA a).hasHessian = true ∧ (FitResult.new.fillA a).covMatrixValid = true := by
  obtain ⟨start', par, h1, h2, h3, bad, h4, ha⟩ := pwaFit_ok minimize eig rnd l o bin file a h
  obtain ⟨comp, hl⟩ := layout_of_matches l.fn hm
  have hn := hl.nmb
  have hc : ∃ c, a.cov = some c ∧ c.nRows ≠ 0 ∧ c.nCols ≠ 0 := by
    refine ⟨⟨l.pars.nmbPars, l.pars.nmbPars,
      fun i j => 0.5 * (minimize (startValues rnd l.fn.nmbEvents start' l.pars.params)).cov i j⟩, ?_, ?_, ?_⟩
    · rw [ha]; unfold fillFitResult; simp [hs]
    · show l.pars.nmbPars ≠ 0; omega
    · show l.pars.nmbPars ≠ 0; omega
  obtain ⟨_, _, _, _, _, _, _, _, _, _, _, _, _, _, _, f1, f2⟩ := fill_fields FitResult.new a
  obtain ⟨c, c1, c2, c3⟩ := hc
  exact ⟨f2.2 ⟨c, c1, Or.inl ⟨c2, c3⟩⟩, f1.2 ⟨c, c1, c2, c3⟩⟩

end Rpwa.PwaFit

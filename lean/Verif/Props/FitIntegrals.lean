import Verif.Lemmas.FitIntegrals
import Verif.Props.FitRefill
/-! # C87: integral matrices taken out of fit results and put back -/
namespace Rpwa.FitInts

open Rpwa.Fit Rpwa.Integral

theorem sameFit_with (r : FitResult) (waves : List Name) (h : IsFit waves r) (N A : Mat ℂ) (ps : List ℝ) :
    SameFit r (FitResult.new.fillA (argsWith r N A ps)) := by
  obtain ⟨a, rfl⟩ := h.hfilled
  refine ⟨rfl, rfl, rfl, rfl, rfl, rfl, rfl, rfl, rfl, rfl, ?_, rfl, rfl, rfl, ?_⟩
  · cases hc : a.cov with
    | none => simp [argsWith, FitResult.fillA, FitResult.fill, hc, Mat.empty]
    | some c => simp [argsWith, FitResult.fillA, FitResult.fill, hc]
  · cases hc : a.cov with
    | none => simp [argsWith, FitResult.fillA, FitResult.fill, hc, Mat.empty]
    | some c =>
      by_cases h2 : c.nRows ≠ 0 ∧ c.nCols ≠ 0
      · simp [argsWith, FitResult.fillA, FitResult.fill, hc, h2]
      · have h3 : ¬ (¬ c.nRows = 0 ∧ ¬ c.nCols = 0) := h2
        simp only [argsWith, FitResult.fillA, FitResult.fill, hc, Option.getD_some, ne_eq, if_neg h3]

theorem holds_with (norm acc : IntMat) (r : FitResult) (waves : List Name) (hw : r.waveNames = waves ++ ["flat".toList])
    (hc : Covers norm acc waves) (tot : ℝ) :
    HoldsIntegrals norm acc norm.nmbEvents tot waves (FitResult.new.fillA (argsWith r (normMat norm norm.nmbEvents r waves.length)
      (accMat norm acc norm.nmbEvents r waves.length tot) (psList norm norm.nmbEvents r waves.length))) := by
  have hgen : (0 : ℝ) < norm.nmbEvents := by have := hc.hgen; positivity
  have hgenC : (norm.nmbEvents : ℂ) ≠ 0 := by exact_mod_cast hc.hgen
  have hget : ∀ (i : ℕ) (a : Name), waves[i]? = some a → r.waveNames.getD i [] = a ∧ i < waves.length ∧ a ∈ waves := by
    intro i a h
    have hi := (List.getElem?_eq_some_iff.1 h).1
    refine ⟨?_, hi, List.mem_of_getElem? h⟩
    rw [hw, List.getD_eq_getElem?_getD, List.getElem?_append_left hi, h]; rfl
  have hval : ∀ (i : ℕ) (a : Name), waves[i]? = some a →
      val norm norm.nmbEvents r i i = norm.entry (String.ofList a) (String.ofList a) / (norm.nmbEvents : ℂ) := by
    intro i a h
    unfold val
    simp only [(hget i a h).1, if_true]
  have hre : ∀ (i : ℕ) (a : Name), waves[i]? = some a →
      (val norm norm.nmbEvents r i i).re = (norm.entry (String.ofList a) (String.ofList a)).re / norm.nmbEvents := by
    intro i a h
    rw [hval i a h, Complex.div_natCast_re]
  have hpos : ∀ (i : ℕ) (a : Name), waves[i]? = some a → 0 < normVal norm norm.nmbEvents r i ∧
      normVal norm norm.nmbEvents r i ^ 2 = (norm.entry (String.ofList a) (String.ofList a)).re / norm.nmbEvents := by
    intro i a h
    have h1 : 0 < (val norm norm.nmbEvents r i i).re := by
      rw [hre i a h]; exact div_pos (hc.hpos a (hget i a h).2.2).1 hgen
    unfold normVal
    refine ⟨Real.sqrt_pos.2 h1, ?_⟩
    rw [Real.sq_sqrt h1.le, hre i a h]
  have hps : ∀ (i : ℕ) (a : Name), waves[i]? = some a → (psList norm norm.nmbEvents r waves.length)[i]? = some (normVal norm norm.nmbEvents r i) := by
    intro i a h
    have hi := (hget i a h).2.1
    unfold psList
    rw [List.getElem?_append_left (by simpa using hi)]
    simp [hi]
  have hv : ∀ (m : IntMat) (i j : ℕ) (a b : Name) (e f : ℤ), waves[i]? = some a → waves[j]? = some b → getReflectivity a = .ok e →
      getReflectivity b = .ok f → val m norm.nmbEvents r i j * (norm.nmbEvents : ℂ) = if e = f then m.entry (String.ofList a) (String.ofList b) else 0 := by
    intro m i j a b e f h1 h2 h3 h4
    unfold val
    simp only [(hget i a h1).1, (hget j b h2).1, h3, h4, Outcome.ok.injEq]
    by_cases h : e = f
    · rw [if_pos h, if_pos h, div_mul_cancel₀ _ hgenC]
    · rw [if_neg h, if_neg h, zero_mul]
  refine ⟨⟨rfl, rfl⟩, ⟨rfl, rfl⟩, ?_, ?_, ?_, ?_, ⟨?_, ?_, ?_⟩, ?_⟩
  · show (psList norm norm.nmbEvents r waves.length).length = _
    simp [psList]
  · intro i a h
    refine ⟨normVal norm norm.nmbEvents r i, hps i a h, (hpos i a h).1, ?_⟩
    rw [(hpos i a h).2, div_mul_cancel₀ _ hgen.ne']
  · intro i j a b p q e f h1 h2 hp hq h3 h4
    have hp := Option.some.inj (hp.symm.trans (hps i a h1))
    have hq := Option.some.inj (hq.symm.trans (hps j b h2))
    show (normMat norm norm.nmbEvents r waves.length).entry i j * _ * _ = _
    rw [← hv norm i j a b e f h1 h2 h3 h4]
    unfold normMat
    dsimp only
    rw [if_pos ⟨(hget i a h1).2.1, (hget j b h2).2.1⟩, hp, hq]
    by_cases hij : i = j
    · subst hij
      have hab : a = b := Option.some.inj (h1.symm.trans h2)
      subst hab
      have him : (val norm norm.nmbEvents r i i).im = 0 := by
        rw [hval i a h1, Complex.div_natCast_im, (hc.hpos a (hget i a h1).2.2).2, zero_div]
      have hz : val norm norm.nmbEvents r i i = (((val norm norm.nmbEvents r i i).re : ℝ) : ℂ) := Complex.ext rfl (by simpa using him)
      rw [if_pos rfl, one_mul]
      congr 1
      conv_rhs => rw [hz]
      rw [hre i a h1, ← (hpos i a h1).2]
      push_cast
      ring
    · rw [if_neg hij]
      have hp1 := (hpos i a h1).1.ne'
      have hq1 := (hpos j b h2).1.ne'
      have hne : ((normVal norm norm.nmbEvents r i * normVal norm norm.nmbEvents r j : ℝ) : ℂ) ≠ 0 := by
        exact_mod_cast mul_ne_zero hp1 hq1
      rw [← Complex.ofReal_mul, div_mul_cancel₀ _ hne]
  · intro i j a b p q e f h1 h2 hp hq h3 h4
    have hp := Option.some.inj (hp.symm.trans (hps i a h1))
    have hq := Option.some.inj (hq.symm.trans (hps j b h2))
    show (accMat norm acc norm.nmbEvents r waves.length tot).entry i j * _ * _ = _
    rw [← hv acc i j a b e f h1 h2 h3 h4]
    unfold accMat
    dsimp only
    rw [if_pos ⟨(hget i a h1).2.1, (hget j b h2).2.1⟩, hp, hq]
    have hp1 := (hpos i a h1).1.ne'
    have hq1 := (hpos j b h2).1.ne'
    have hne : ((normVal norm norm.nmbEvents r i * normVal norm norm.nmbEvents r j : ℝ) : ℂ) ≠ 0 := by
      exact_mod_cast mul_ne_zero hp1 hq1
    rw [← Complex.ofReal_mul, div_mul_cancel₀ _ hne]
  · show (normMat norm norm.nmbEvents r waves.length).entry _ _ = 1
    simp [normMat]
  · show (accMat norm acc norm.nmbEvents r waves.length tot).entry _ _ = _
    simp [accMat]
  · show (psList norm norm.nmbEvents r waves.length)[_]? = _
    unfold psList
    rw [List.getElem?_append_right (by simp)]
    simp
  · intro i hi
    refine ⟨?_, ?_, ?_, ?_⟩
    · show (normMat norm norm.nmbEvents r waves.length).entry _ _ = 0
      simp [normMat, hi.ne]
    · show (normMat norm norm.nmbEvents r waves.length).entry _ _ = 0
      simp [normMat, hi.ne]
    · show (accMat norm acc norm.nmbEvents r waves.length tot).entry _ _ = 0
      simp [accMat, hi.ne]
    · show (accMat norm acc norm.nmbEvents r waves.length tot).entry _ _ = 0
      simp [accMat, hi.ne]

/-- **C87, one fit result.** The result with integrals differs from the given one in its integrals only, and these are those of the given
matrices, for the waves they are looked up for. -/
theorem add_entry (norm acc : IntMat) (force : Bool) (r : FitResult) (waves : List Name) (h : IsFit waves r) (hc : Covers norm acc waves)
    (hf : hasIntegrals r = true → force = true) :
    ∃ r', addEntry norm acc force r = .ok (some (r', { acc with nmbEvents := norm.nmbEvents })) ∧ SameFit r r' ∧
      HoldsIntegrals norm acc norm.nmbEvents ((acc.nmbEvents : ℝ) / norm.nmbEvents) waves r' ∧
      ∀ (k : ℕ) (n : Name), r'.prodAmpNames[k]? = some n → ∃ w, r'.normIntIndexMap k = some w ∧ r'.waveNames[w]? = some (waveNameOf n) :=
  ⟨_, addEntry_eq norm acc force r waves h.hwaves hc hf, sameFit_with r waves h _ _ _, holds_with norm acc r waves h.hwaves hc _,
    fun k n hk => fill_fresh_indexMap _ (.inl rfl) k n hk⟩

theorem covers_events (norm acc : IntMat) (waves : List Name) (hc : Covers norm acc waves) (n : ℕ) :
    Covers norm { acc with nmbEvents := n } waves :=
  ⟨hc.hnorm, ⟨hc.hacc.waves, hc.hacc.rows, hc.hacc.cols⟩, hc.hgen, hc.hflat, hc.hnormNames, hc.haccNames, hc.hrefl, hc.hpos⟩

theorem holds_events (norm acc : IntMat) (gen n : ℕ) (t : ℝ) (waves : List Name) (r : FitResult)
    (h : HoldsIntegrals norm { acc with nmbEvents := n } gen t waves r) : HoldsIntegrals norm acc gen t waves r :=
  ⟨h.hnormDim, h.haccDim, h.hpsLen, h.hps, h.hnorm, h.hacc, h.hflat, h.hcross⟩

/-- **C87.** Integrals are added to every fit result of a tree, in the order of the entries; nothing else of the results changes.  The fraction
of accepted events is right for the first entry only: for every later entry it is 1, since the number of events of the acceptance integral is
overwritten when the first entry is processed. -/
theorem add_tree (norm acc : IntMat) (force : Bool) (rs : List FitResult)
    (h : ∀ r ∈ rs, ∃ waves, IsFit waves r ∧ Covers norm acc waves ∧ (hasIntegrals r = true → force = true)) :
    ∃ rs', addMain norm force acc rs = .ok (some rs') ∧ rs'.length = rs.length ∧
      ∀ (k : ℕ) (r r' : FitResult), rs[k]? = some r → rs'[k]? = some r' → SameFit r r' ∧ ∃ waves, r.waveNames = waves ++ ["flat".toList] ∧
        HoldsIntegrals norm acc norm.nmbEvents (if k = 0 then (acc.nmbEvents : ℝ) / norm.nmbEvents else 1) waves r' := by
  induction rs generalizing acc with
  | nil => exact ⟨[], rfl, rfl, by simp⟩
  | cons r rs ih =>
    obtain ⟨waves, hw, hc, hf⟩ := h r (by simp)
    obtain ⟨r', h1, h2, h3, _⟩ := add_entry norm acc force r waves hw hc hf
    obtain ⟨rs', h4, h5, h6⟩ := ih { acc with nmbEvents := norm.nmbEvents } fun r hr => by
      obtain ⟨w, a, b, c⟩ := h r (List.mem_cons_of_mem _ hr)
      exact ⟨w, a, covers_events norm acc w b _, c⟩
    refine ⟨r' :: rs', ?_, by simp [h5], ?_⟩
    · unfold addMain
      rw [h1, Outcome.ok_bind]
      dsimp only
      rw [h4]
      rfl
    · intro k s s' hk hk'
      cases k with
      | zero =>
        have e1 : r = s := Option.some.inj hk
        have e2 : r' = s' := Option.some.inj hk'
        subst e1 e2
        exact ⟨h2, waves, hw.hwaves, h3⟩
      | succ k =>
        obtain ⟨g1, w, g2, g3⟩ := h6 k s s' (by simpa using hk) (by simpa using hk')
        refine ⟨g1, w, g2, holds_events norm acc _ norm.nmbEvents _ _ _ ?_⟩
        have hgen : ((norm.nmbEvents : ℕ) : ℝ) ≠ 0 := by exact_mod_cast hc.hgen
        have e : (if k = 0 then ((norm.nmbEvents : ℕ) : ℝ) / norm.nmbEvents else 1) = (1 : ℝ) := by
          split_ifs
          · exact div_self hgen
          · rfl
        rw [if_neg (by omega)]
        have g3 := g3
        rw [show ({ acc with nmbEvents := norm.nmbEvents } : IntMat).nmbEvents = norm.nmbEvents from rfl, e] at g3
        exact g3

theorem addMain_none (norm acc : IntMat) (force : Bool) (rs : List FitResult) (r : FitResult) (hr : r ∈ rs)
    (h : ∀ acc o, addEntry norm acc force r ≠ .ok (some o)) (rs' : List FitResult) : addMain norm force acc rs ≠ .ok (some rs') := by
  induction rs generalizing acc rs' with
  | nil => cases hr
  | cons s rs ih =>
    intro hc
    unfold addMain at hc
    obtain ⟨o, h1, h2⟩ := Outcome.bind_eq_ok.1 hc
    cases o with
    | none => simp at h2
    | some p =>
      obtain ⟨s', acc'⟩ := p
      dsimp only at h2
      obtain ⟨rest, h3, h4⟩ := Outcome.bind_eq_ok.1 h2
      cases rest with
      | none => simp at h4
      | some l =>
        rcases List.mem_cons.1 hr with e | e
        · subst e; exact h _ _ h1
        · exact ih _ e _ h3

/-- **C87, no replacement by accident.** If an entry has integrals already and replacing them is not asked for, no tree is written. -/
theorem add_refuses (norm acc : IntMat) (rs rs' : List FitResult) (r : FitResult) (hr : r ∈ rs)
    (h : r.normIntegral.nRows ≠ 0 ∨ r.normIntegral.nCols ≠ 0 ∨ r.accNormIntegral.nRows ≠ 0 ∨ r.accNormIntegral.nCols ≠ 0 ∨ r.phaseSpaceIntegral ≠ []) :
    addMain norm false acc rs ≠ .ok (some rs') := by
  apply addMain_none norm acc false rs r hr
  intro acc o hc
  have hi : hasIntegrals r = true := by
    unfold hasIntegrals
    rw [Bool.or_eq_true, decide_eq_true_iff]
    rcases h with h | h | h | h | h
    · exact .inl (.inr (.inl h))
    · exact .inl (.inl h)
    · exact .inl (.inr (.inr (.inr h)))
    · exact .inl (.inr (.inr (.inl h)))
    · refine .inr ?_
      cases hl : r.phaseSpaceIntegral with
      | nil => exact absurd hl h
      | cons => rfl
  unfold addEntry at hc
  rw [hi, if_pos (by rfl)] at hc
  cases hc

/-- **C87, order of the waves.** A flat wave before the last wave is detected: no tree is written. -/
theorem add_flat_not_last (norm acc : IntMat) (force : Bool) (rs rs' : List FitResult) (r : FitResult) (hr : r ∈ rs) (k : ℕ)
    (hk : k + 1 < r.waveNames.length) (hflat : r.waveNames[k]? = some "flat".toList) : addMain norm force acc rs ≠ .ok (some rs') := by
  apply addMain_none norm acc force rs r hr
  intro acc o hc
  unfold addEntry at hc
  split at hc
  · cases hc
  · dsimp only at hc
    obtain ⟨st, h1, h2⟩ := Outcome.bind_eq_ok.1 hc
    cases st with
    | none => simp at h2
    | some s =>
      rw [if_neg (by omega)] at h1
      unfold copyLoop at h1
      refine forReturn_stops _ k (by omega) _ _ _ ?_ h1
      intro s t
      unfold FitResult.waveName
      rw [hflat]
      simp

/-- **C87, stripping.** The stripped result has no integrals and, if the covariance is kept, is otherwise the same; without the covariance it is
one without covariance and Hessian. -/
theorem strip_entry (stripCov : Bool) (rs : List FitResult) (k : ℕ) (r r' : FitResult) (waves : List Name) (h : IsFit waves r)
    (hcov : r.covMatrixValid = false → r.cov = .empty ℝ ∧ r.hasHessian = false)
    (hk : rs[k]? = some r) (hk' : (stripMain stripCov rs)[k]? = some r') :
    hasIntegrals r' = false ∧ IsFit waves r' ∧ (stripCov = false → SameFit r r') ∧
    (stripCov = true → r'.covMatrixValid = false ∧ r'.hasHessian = false ∧ r'.cov.nRows = 0 ∧
      SameFit { r with cov := r'.cov, covMatrixValid := false, hasHessian := false } r') := by
  have e : r' = FitResult.new.fillFrom r (!stripCov) false := by
    unfold stripMain at hk'
    rw [List.getElem?_map, hk] at hk'
    exact (Option.some.inj hk').symm
  obtain ⟨a, ha⟩ := h.hfilled
  have hw : r'.waveNames = r.waveNames := by rw [e, ha]; rfl
  refine ⟨by rw [e]; simp [FitResult.fillFrom, FitResult.fillA, FitResult.fill, FitResult.argsOf, hasIntegrals, Mat.empty],
    ⟨hw.trans h.hwaves, ⟨_, e⟩⟩, ?_, ?_⟩
  · intro h1
    subst h1
    by_cases h2 : r.covMatrixValid = true
    · have hca : r.hasHessian = true ∧ r.cov.nRows ≠ 0 ∧ r.cov.nCols ≠ 0 := by
        cases hc : a.cov with
        | none => rw [ha] at h2; simp [FitResult.fillA, FitResult.fill, hc] at h2
        | some c =>
          rw [ha] at h2 ⊢
          have h3 : c.nRows ≠ 0 ∧ c.nCols ≠ 0 := by simpa [FitResult.fillA, FitResult.fill, hc] using h2
          simp [FitResult.fillA, FitResult.fill, hc, h3]
      subst e
      refine ⟨rfl, rfl, rfl, rfl, rfl, rfl, rfl, rfl, hw, ?_, ?_, rfl, rfl, rfl, ?_⟩
      · simp [FitResult.fillFrom, FitResult.fillA, FitResult.fill, FitResult.argsOf, h2]
      · simp [FitResult.fillFrom, FitResult.fillA, FitResult.fill, FitResult.argsOf, h2, hca]
      · simp [FitResult.fillFrom, FitResult.fillA, FitResult.fill, FitResult.argsOf, h2, hca]
    · have h2 : r.covMatrixValid = false := by simpa using h2
      obtain ⟨h3, h4⟩ := hcov h2
      subst e
      refine ⟨rfl, rfl, rfl, rfl, rfl, rfl, rfl, rfl, hw, ?_, ?_, rfl, rfl, rfl, ?_⟩
      · simp [FitResult.fillFrom, FitResult.fillA, FitResult.fill, FitResult.argsOf, h2, h3]
      · simp [FitResult.fillFrom, FitResult.fillA, FitResult.fill, FitResult.argsOf, h2]
      · simp [FitResult.fillFrom, FitResult.fillA, FitResult.fill, FitResult.argsOf, h2, h4]
  · intro h1
    subst h1
    subst e
    refine ⟨?_, ?_, ?_, ?_⟩
    · simp [FitResult.fillFrom, FitResult.fillA, FitResult.fill, FitResult.argsOf]
    · simp [FitResult.fillFrom, FitResult.fillA, FitResult.fill, FitResult.argsOf]
    · simp [FitResult.fillFrom, FitResult.fillA, FitResult.fill, FitResult.argsOf, Mat.empty]
    · refine ⟨rfl, rfl, rfl, rfl, rfl, rfl, rfl, rfl, hw, rfl, ?_, rfl, rfl, rfl, ?_⟩
      · simp [FitResult.fillFrom, FitResult.fillA, FitResult.fill, FitResult.argsOf]
      · simp [FitResult.fillFrom, FitResult.fillA, FitResult.fill, FitResult.argsOf]

end Rpwa.FitInts

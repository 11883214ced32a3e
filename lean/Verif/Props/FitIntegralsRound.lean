import Verif.Props.FitIntegrals
import Verif.Props.PwaFitMatrices
import Verif.Props.LikSetupUse
import Verif.Lemmas.Covariance
/-! # C87: integrals that are stripped from the result of a fit can be restored -/
namespace Rpwa.FitInts

open Rpwa.Fit Rpwa.Integral Rpwa.Lik Rpwa.PwaFit

/-- the likelihood object that a fit gets. -/
noncomputable def likOf (inp : SetupInput) (s : LikObj) : Lik := ⟨s.data, inp.waves, s.pars, ⟨s.ints, s.phaseSpace, s.totAcc⟩⟩

/-- names of the waves, in the order of the fit result. -/
noncomputable def fitWaves (inp : SetupInput) : List Name := (waveIxs inp.waves.nW).map fun i => (inp.waveName i).toList

/-- input of a fit whose integrals can be restored: amplitudes are normalised, the acceptance is not corrected by hand, waves have different names that
show their reflectivity, and no wave has a vanishing normalisation integral. -/
structure Restorable (inp : SetupInput) : Prop where
  huse : inp.useNorm = true
  hover : inp.accEventsOverride = 0
  hnodup : (inp.ws.map (·.1)).Nodup
  hflat : ∀ w ∈ inp.ws, w.1 ≠ "flat"
  hrefl : ∀ w ∈ inp.ws, getReflectivity w.1.toList = .ok w.2.1 ∧ (w.2.1 = 1 ∨ w.2.1 = -1)
  hnormWF : inp.norm.WF
  haccWF : inp.acc.WF
  hgen : inp.norm.nmbEvents ≠ 0
  hnorm : ∀ w ∈ inp.ws, w.1 ∈ inp.norm.names
  hacc : ∀ w ∈ inp.ws, w.1 ∈ inp.acc.names
  hpos : ∀ w ∈ inp.ws, 0 < (inp.norm.entry w.1 w.1).re ∧ (inp.norm.entry w.1 w.1).im = 0

theorem covers_of (inp : SetupInput) (h : Restorable inp) : Covers inp.norm inp.acc (fitWaves inp) := by
  have hmem : ∀ a ∈ fitWaves inp, ∃ w ∈ inp.ws, a = w.1.toList := by
    intro a ha
    obtain ⟨i, hi, rfl⟩ := List.mem_map.1 ha
    obtain ⟨w, hw, he, _⟩ := inp.waveName_mem i ((mem_waveIxs _ _).1 hi)
    exact ⟨w, hw, by rw [he]⟩
  refine ⟨h.hnormWF, h.haccWF, h.hgen, ?_, ?_, ?_, ?_, ?_⟩
  · intro hc
    obtain ⟨w, hw, he⟩ := hmem _ hc
    exact h.hflat w hw (String.toList_injective he.symm)
  · intro a ha
    obtain ⟨w, hw, rfl⟩ := hmem a ha
    rw [String.ofList_toList]; exact h.hnorm w hw
  · intro a ha
    obtain ⟨w, hw, rfl⟩ := hmem a ha
    rw [String.ofList_toList]; exact h.hacc w hw
  · intro a ha
    obtain ⟨w, hw, rfl⟩ := hmem a ha
    exact ⟨_, (h.hrefl w hw).1⟩
  · intro a ha
    obtain ⟨w, hw, rfl⟩ := hmem a ha
    rw [String.ofList_toList]; exact h.hpos w hw

theorem refl_iff (inp : SetupInput) (h : Restorable inp) (i j : WaveIx) (hi : inp.IsWave i) (hj : inp.IsWave j) :
    getReflectivity (inp.waveName i).toList = getReflectivity (inp.waveName j).toList ↔ i.1 = j.1 := by
  obtain ⟨v, hv, ev, rv⟩ := inp.waveName_mem i hi
  obtain ⟨w, hw, ew, rw'⟩ := inp.waveName_mem j hj
  rw [← ev, ← ew, (h.hrefl v hv).1, (h.hrefl w hw).1, Outcome.ok.injEq]
  have h1 := (h.hrefl v hv).2
  have h2 := (h.hrefl w hw).2
  have h3 := hi.1
  have h4 := hj.1
  omega

/-- the integrals of the fit are those that are computed from the integral matrices. -/
theorem mats_eq (inp : SetupInput) (h : Restorable inp) (r : FitResult) (hw : r.waveNames = fitWaves inp ++ ["flat".toList]) (tot : ℝ)
    (hdiag : inp.DiagOk) :
    normMat inp.norm inp.norm.nmbEvents r (fitWaves inp).length = integralMatrix inp.waves.nW (rescaleIntegrals inp.waves.nW inp.ints).norm 1 ∧
    accMat inp.norm inp.acc inp.norm.nmbEvents r (fitWaves inp).length tot = integralMatrix inp.waves.nW (rescaleIntegrals inp.waves.nW inp.ints).acc tot ∧
    psList inp.norm inp.norm.nmbEvents r (fitWaves inp).length = (waveIxs inp.waves.nW).map
      (fun i => if i ∈ waveIxs inp.waves.nW then Real.sqrt (inp.ints.norm i i).re else 0) ++ [1] := by
  have hlen : (waveIxs inp.waves.nW).length = inp.waves.nW 0 + inp.waves.nW 1 := by
    unfold waveIxs
    simp [List.range_succ]
  have hlen' : (fitWaves inp).length = inp.waves.nW 0 + inp.waves.nW 1 := by
    unfold fitWaves; rw [List.length_map, hlen]
  have hat : ∀ k < (waveIxs inp.waves.nW).length, waveAt inp.waves.nW k ∈ waveIxs inp.waves.nW ∧
      r.waveNames.getD k [] = (inp.waveName (waveAt inp.waves.nW k)).toList := by
    intro k hk
    have e : waveAt inp.waves.nW k = (waveIxs inp.waves.nW)[k] := by
      unfold waveAt; rw [List.getD_eq_getElem?_getD, List.getElem?_eq_getElem hk]; rfl
    refine ⟨by rw [e]; exact List.getElem_mem hk, ?_⟩
    rw [hw, List.getD_eq_getElem?_getD, List.getElem?_append_left (by rw [hlen']; omega)]
    unfold fitWaves
    rw [List.getElem?_map, List.getElem?_eq_getElem hk, e]
    rfl
  have hgen : inp.genEvents = inp.norm.nmbEvents := by unfold SetupInput.genEvents; rw [if_pos h.hover]
  have hvalN : ∀ i < (waveIxs inp.waves.nW).length, ∀ j < (waveIxs inp.waves.nW).length,
      val inp.norm inp.norm.nmbEvents r i j = inp.ints.norm (waveAt inp.waves.nW i) (waveAt inp.waves.nW j) := by
    intro i hi j hj
    obtain ⟨a1, a2⟩ := hat i hi
    obtain ⟨b1, b2⟩ := hat j hj
    have wi := (mem_waveIxs _ _).1 a1
    have wj := (mem_waveIxs _ _).1 b1
    unfold val SetupInput.ints
    dsimp only
    rw [a2, b2, String.ofList_toList, String.ofList_toList]
    by_cases hr : (waveAt inp.waves.nW i).1 = (waveAt inp.waves.nW j).1
    · rw [if_pos ((refl_iff inp h _ _ wi wj).2 hr), if_pos ⟨hr, wi, wj⟩]
    · rw [if_neg (fun hc => hr ((refl_iff inp h _ _ wi wj).1 hc)), if_neg (fun hc => hr hc.1)]
  have hvalA : ∀ i < (waveIxs inp.waves.nW).length, ∀ j < (waveIxs inp.waves.nW).length,
      val inp.acc inp.norm.nmbEvents r i j = inp.ints.acc (waveAt inp.waves.nW i) (waveAt inp.waves.nW j) := by
    intro i hi j hj
    obtain ⟨a1, a2⟩ := hat i hi
    obtain ⟨b1, b2⟩ := hat j hj
    have wi := (mem_waveIxs _ _).1 a1
    have wj := (mem_waveIxs _ _).1 b1
    unfold val SetupInput.ints
    dsimp only
    rw [a2, b2, String.ofList_toList, String.ofList_toList, hgen]
    by_cases hr : (waveAt inp.waves.nW i).1 = (waveAt inp.waves.nW j).1
    · rw [if_pos ((refl_iff inp h _ _ wi wj).2 hr), if_pos ⟨hr, wi, wj⟩]
    · rw [if_neg (fun hc => hr ((refl_iff inp h _ _ wi wj).1 hc)), if_neg (fun hc => hr hc.1)]
  have hpos : ∀ i ∈ waveIxs inp.waves.nW, 0 < (inp.ints.norm i i).re := by
    intro i hi
    have wi := (mem_waveIxs _ _).1 hi
    obtain ⟨w, hw, ew, _⟩ := inp.waveName_mem i wi
    unfold SetupInput.ints
    dsimp only
    rw [if_pos ⟨rfl, wi, wi⟩, Complex.div_natCast_re, ← ew]
    have : (0 : ℝ) < inp.norm.nmbEvents := by have := h.hgen; positivity
    exact div_pos (h.hpos w hw).1 this
  have hsq : ∀ i < (waveIxs inp.waves.nW).length, normVal inp.norm inp.norm.nmbEvents r i = waveNorm inp.ints.norm (waveAt inp.waves.nW i) := by
    intro i hi
    unfold normVal waveNorm
    rw [hvalN i hi i hi, if_neg (Real.sqrt_pos.2 (hpos _ (hat i hi).1)).ne']
  have hinjAt : ∀ i < (waveIxs inp.waves.nW).length, ∀ j < (waveIxs inp.waves.nW).length, waveAt inp.waves.nW i = waveAt inp.waves.nW j → i = j := by
    intro i hi j hj he
    unfold waveAt at he
    rw [List.getD_eq_getElem?_getD, List.getD_eq_getElem?_getD, List.getElem?_eq_getElem hi, List.getElem?_eq_getElem hj] at he
    exact (List.Nodup.getElem_inj_iff (nodup_waveIxs inp.waves.nW)).1 he
  refine ⟨?_, ?_, ?_⟩
  · unfold normMat integralMatrix
    dsimp only
    rw [hlen']
    congr 1
    funext a b
    by_cases hab : a < inp.waves.nW 0 + inp.waves.nW 1 ∧ b < inp.waves.nW 0 + inp.waves.nW 1
    · have ha : a < (waveIxs inp.waves.nW).length := by rw [hlen]; exact hab.1
      have hb : b < (waveIxs inp.waves.nW).length := by rw [hlen]; exact hab.2
      rw [if_pos hab, if_pos hab, rescale_norm _ _ _ _ (hat a ha).1 (hat b hb).1, hsq a ha, hsq b hb, hvalN a ha b hb]
      by_cases he : a = b
      · subst he
        have hne : inp.ints.norm (waveAt inp.waves.nW a) (waveAt inp.waves.nW a) ≠ 0 := by
          intro hc
          have := hpos _ (hat a ha).1
          rw [hc] at this
          simp at this
        rw [if_pos rfl, if_pos rfl, if_pos hne]
      · rw [if_neg he, if_neg fun hc => he (hinjAt a ha b hb hc)]
    · rw [if_neg hab, if_neg hab]
  · unfold accMat integralMatrix
    dsimp only
    rw [hlen']
    congr 1
    funext a b
    by_cases hab : a < inp.waves.nW 0 + inp.waves.nW 1 ∧ b < inp.waves.nW 0 + inp.waves.nW 1
    · have ha : a < (waveIxs inp.waves.nW).length := by rw [hlen]; exact hab.1
      have hb : b < (waveIxs inp.waves.nW).length := by rw [hlen]; exact hab.2
      rw [if_pos hab, if_pos hab, rescale_acc _ _ _ _ (hat a ha).1 (hat b hb).1, hsq a ha, hsq b hb, hvalA a ha b hb]
    · rw [if_neg hab, if_neg hab]
  · unfold psList
    congr 1
    apply List.ext_getElem?
    intro k
    by_cases hk : k < (waveIxs inp.waves.nW).length
    · have hk' : k < (fitWaves inp).length := by rw [hlen', ← hlen]; exact hk
      have e : waveAt inp.waves.nW k = (waveIxs inp.waves.nW)[k] := by
        unfold waveAt; rw [List.getD_eq_getElem?_getD, List.getElem?_eq_getElem hk]; rfl
      rw [List.getElem?_map, List.getElem?_range hk', List.getElem?_map, List.getElem?_eq_getElem hk, Option.map_some, Option.map_some,
        if_pos (List.getElem_mem hk)]
      unfold normVal
      rw [hvalN k hk k hk, e]
    · rw [List.getElem?_eq_none (by rw [List.length_map, List.length_range, hlen', ← hlen]; omega),
        List.getElem?_eq_none (by rw [List.length_map]; omega)]

/-- **C87, round trip.** The result of a fit from which the integrals were stripped is restored, completely, by adding the integral matrices that the
likelihood of the fit was made with. -/
theorem strip_then_add (inp : SetupInput) (h : Restorable inp) (order : List String) (s : LikObj)
    (hs : Succeeds LikObj.new (inp.protocol order) s) (hrank : 0 < inp.rank) (o : Options) (ho : o.saveSpace = false) (bin : List (Name × ℝ × ℝ))
    (par : ℕ → ℝ) (v : ℝ) (cov : ℕ → ℕ → ℝ) (c hh : Bool)
    (r : FitResult) (hr : r = FitResult.new.fillA (fillFitResult (likOf inp s) o bin par v cov c hh)) :
    addMain inp.norm false inp.acc (stripMain false [r]) = .ok (some [r]) := by
  have hdiag : inp.DiagOk := by
    intro i hi
    obtain ⟨w, hw, ew, _⟩ := inp.waveName_mem i hi
    unfold SetupInput.ints
    dsimp only
    rw [if_pos ⟨rfl, hi, hi⟩, Complex.div_natCast_re, Complex.div_natCast_im, ← ew, (h.hpos w hw).2, zero_div]
    exact ⟨div_nonneg (h.hpos w hw).1.le (Nat.cast_nonneg _), rfl⟩
  have hname : ∀ i ∈ waveIxs inp.waves.nW, inp.waveName i ≠ "flat" := by
    intro i hi
    obtain ⟨w, hw, ew, _⟩ := inp.waveName_mem i ((mem_waveIxs _ _).1 hi)
    rw [← ew]; exact h.hflat w hw
  have hm : s.data.Matches inp.waves s.pars inp.mass := inp.setup_matches hdiag order s hs fun i hi he =>
    absurd he (hname i ((mem_waveIxs _ _).2 hi))
  have hpars : s.pars.nmbPars ≠ 0 := by
    obtain ⟨comp, hl⟩ := layout_of_matches s.data hm
    have := hl.nmb
    omega
  obtain ⟨d, N, hd, hN, hok, hall, hfin⟩ := inp.protocol_spec hdiag order s hs
  have enW : s.data.nW = inp.waves.nW := by rw [hfin]; rfl
  have erank : s.data.rank = inp.rank := by rw [hfin]; rfl
  have eints : s.ints = rescaleIntegrals inp.waves.nW inp.ints := by
    rw [hfin]
    show (if inp.useNorm then rescaleIntegrals inp.waves.nW inp.ints else inp.ints) = _
    rw [if_pos h.huse]
  have eps : s.phaseSpace = fun i => if i ∈ waveIxs inp.waves.nW then Real.sqrt (inp.ints.norm i i).re else 0 := by rw [hfin]; rfl
  have etot : s.totAcc = (inp.acc.nmbEvents : ℝ) / inp.norm.nmbEvents := by
    have e1 : s.totAcc = inp.totAcc := by rw [hfin]; rfl
    rw [e1]
    unfold SetupInput.totAcc SetupInput.genEvents
    rw [if_pos h.hover]
  set a := fillFitResult (likOf inp s) o bin par v cov c hh with ha
  have hwaves : r.waveNames = fitWaves inp ++ ["flat".toList] := by
    rw [hr, ha, fill_waveNames (likOf inp s) inp.mass hm o bin par v cov c hh (by show 0 < s.data.rank; rw [erank]; exact hrank)]
    · show (waveIxs s.data.nW).map _ ++ _ = _
      rw [enW]; rfl
    · intro i hi j hj hij
      have hi : i ∈ waveIxs s.data.nW := hi
      have hj : j ∈ waveIxs s.data.nW := hj
      rw [enW] at hi hj
      exact inp.waveName_inj h.hnodup i j ((mem_waveIxs _ _).1 hi) ((mem_waveIxs _ _).1 hj) hij
    · intro i hi
      have hi : i ∈ waveIxs s.data.nW := hi
      rw [enW] at hi
      exact hname i hi
  have hcov : a.cov = some ⟨s.pars.nmbPars, s.pars.nmbPars, cov⟩ := by rw [ha]; unfold fillFitResult; simp [ho, likOf]
  have hN1 : a.normIntegral = some (integralMatrix inp.waves.nW s.ints.norm 1) := by rw [ha]; unfold fillFitResult; simp [ho, likOf]
  have hA1 : a.accNormIntegral = some (integralMatrix inp.waves.nW s.ints.acc s.totAcc) := by rw [ha]; unfold fillFitResult; simp [ho, likOf]
  have hP1 : a.phaseSpaceIntegral = some ((waveIxs inp.waves.nW).map s.phaseSpace ++ [1]) := by rw [ha]; unfold fillFitResult; simp [ho, likOf]
  clear_value a
  have hstrip : stripMain false [r] = [FitResult.new.fillA { a with normIntegral := none, accNormIntegral := none, phaseSpaceIntegral := none }] := by
    unfold stripMain
    rw [List.map_singleton, hr]
    congr 1
    refine (fillFrom_select a true false ?_ ?_ ?_ ?_).trans ?_
    · intro c' hc'
      rw [hcov] at hc'
      cases hc'
      exact ⟨hpars, hpars⟩
    · intro m hm'
      rw [hN1] at hm'
      cases hm'
      left; simp [integralMatrix]
    · intro m hm'
      rw [hA1] at hm'
      cases hm'
      left; simp [integralMatrix]
    · intro m hm'
      rw [hP1] at hm'
      cases hm'
      simp
    · simp
  rw [hstrip]
  generalize hr0 : FitResult.new.fillA { a with normIntegral := none, accNormIntegral := none, phaseSpaceIntegral := none } = r0
  have hw0 : r0.waveNames = fitWaves inp ++ ["flat".toList] := by rw [← hwaves, ← hr0, hr]; rfl
  have hno : hasIntegrals r0 = true → false = true := by
    rw [← hr0]
    simp [hasIntegrals, FitResult.fillA, FitResult.fill, Mat.empty]
  unfold addMain
  rw [addEntry_eq inp.norm inp.acc false r0 (fitWaves inp) hw0 (covers_of inp h) hno, Outcome.ok_bind]
  dsimp only
  unfold addMain
  rw [Outcome.ok_bind, Option.map_some]
  obtain ⟨m1, m2, m3⟩ := mats_eq inp h r0 hw0 ((inp.acc.nmbEvents : ℝ) / inp.norm.nmbEvents) hdiag
  rw [m1, m2, m3, ← eints, ← etot]
  have e3 : ((waveIxs inp.waves.nW).map (fun i => if i ∈ waveIxs inp.waves.nW then Real.sqrt (inp.ints.norm i i).re else 0) ++ [1]) =
      (waveIxs inp.waves.nW).map s.phaseSpace ++ [1] := by rw [eps]
  rw [e3]
  congr 3
  rw [hr, ← hr0]
  have hargs : argsWith (FitResult.new.fillA { a with normIntegral := none, accNormIntegral := none, phaseSpaceIntegral := none })
      (integralMatrix inp.waves.nW s.ints.norm 1) (integralMatrix inp.waves.nW s.ints.acc s.totAcc) ((waveIxs inp.waves.nW).map s.phaseSpace ++ [1]) =
      { a with hasHessian := true } := by
    unfold argsWith
    rw [FillArgs.mk.injEq]
    refine ⟨rfl, rfl, rfl, rfl, rfl, rfl, rfl, rfl, ?_, rfl, rfl, hN1.symm, hA1.symm, hP1.symm, rfl, ?_⟩
    · simp [FitResult.fillA, FitResult.fill, hcov]
    · simp [FitResult.fillA, FitResult.fill, hcov, hpars]
  rw [hargs]
  unfold FitResult.fillA FitResult.fill
  simp [hcov, hpars]

end Rpwa.FitInts

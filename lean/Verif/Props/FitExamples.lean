import Verif.Props.FitErrorsLabelled
import Verif.Props.FitRefill
/-!
# C30 – C33: concrete fit results, and what goes wrong outside of the hypotheses -/
namespace Rpwa.Fit

open Finset

/-! ### the assumption about regular expressions can be met -/

/-- removes the backslashes of quoted characters. -/
def unq : Name → Name
  | '\\' :: c :: s => c :: unq s
  | c :: s => c :: unq s
  | [] => []

theorem unq_quoted (l : Name) (hl : '\\' ∉ l) :
    unq (l.flatMap fun c => if c ∈ ['^', '$', '.', '[', ']', '*', '+', '?'] then ['\\', c] else [c]) = l := by
  induction l with
  | nil => rfl
  | cons c l ih =>
    have hc : c ≠ '\\' := fun h => hl (by rw [h]; exact List.mem_cons_self)
    have ih := ih fun h => hl (List.mem_cons_of_mem _ h)
    rw [List.flatMap_cons]
    split
    · simp only [List.cons_append, List.nil_append]
      rw [unq, ih]
    · simp only [List.cons_append, List.nil_append]
      rw [unq, ih]
      intro x s h _
      exact hc h

/-- a matcher that understands quoted literals only. -/
def rxLit (pat s : Name) : Bool := hasSub (unq pat) s

theorem literalRx_rxLit : LiteralRx rxLit := by
  intro lit hlit s
  unfold rxLit
  rw [unq_quoted lit fun h => hlit _ h (by decide), hasSub_iff]

/-! ### a fit of rank two with two waves and the flat wave -/

def wRho : WaveId := ⟨['1', '-'], ['1', '+', '+'], ['0'], true, "=[rho=[pi-[1,0]pi+][0,1]pi-]".toList⟩
def wF2 : WaveId := ⟨['1', '-'], ['2', '-', '+'], ['0'], true, "=[f2=[pi-[2,0]pi+][0,2]pi-]".toList⟩

def exLabels : List Label := [⟨.pw wRho, 0⟩, ⟨.pw wF2, 0⟩, ⟨.pw wRho, 1⟩, ⟨.pw wF2, 1⟩, ⟨.flat, 0⟩]

/-- amplitudes 1, 1, 0, 1, 1; the covariance matrix is the unit matrix in the eight real parameters. -/
noncomputable def exArgs : FillArgs where
  nmbEvents := 100
  normNmbEvents := 2
  multibin := []
  logLikelihood := 0
  rank := 2
  nmbProdAmps := 5
  prodAmps := fun k => if k = 2 then 0 else 1
  prodAmpNames := exLabels.map Label.text
  cov := some ⟨8, 8, fun i j => if i = j then 1 else 0⟩
  nmbCovIdx := 5
  covIdx := fun k => [(0, -1), (1, 2), (3, 4), (5, 6), (7, -1)].getD k (-1, -1)
  normIntegral := some ⟨3, 3, fun i j => if i = j then 1 else 0⟩
  accNormIntegral := some ⟨3, 3, fun i j => if i = j then 1 else 0⟩
  phaseSpaceIntegral := some [1, 1, 1]
  converged := true
  hasHessian := true

noncomputable def exFit : FitResult := FitResult.new.fillA exArgs

theorem repr_digits : (Nat.repr 0).toList = ['0'] ∧ (Nat.repr 1).toList = ['1'] := by
  rw [Nat.toList_repr, Nat.toList_repr]; decide

theorem exLabels_sep : ∀ l ∈ exLabels, ∀ l' ∈ exLabels, l.wave.text <:+: l'.text → l'.wave = l.wave := by
  have h : ∀ l ∈ exLabels, ∀ l' ∈ exLabels, hasSub l.wave.text l'.text = true → l'.wave = l.wave := by decide +kernel
  exact fun l hl l' hl' hi => h l hl l' hl' ((hasSub_iff _ _).2 hi)

theorem exLabels_good : ∀ l ∈ exLabels, ∀ w, l.wave = .pw w → w.Good := by
  have h1 : wRho.Good := by unfold WaveId.Good PlainChar wRho WaveId.text; decide +kernel
  have h2 : wF2.Good := by unfold WaveId.Good PlainChar wF2 WaveId.text; decide +kernel
  intro l hl w hw
  simp only [exLabels, List.mem_cons, List.not_mem_nil, or_false] at hl
  rcases hl with rfl | rfl | rfl | rfl | rfl <;> simp only [Wave.pw.injEq, reduceCtorEq] at hw <;> subst hw <;> assumption

theorem exFit_labelled : Labelled exFit exLabels :=
  fill_labelled exArgs exLabels rfl rfl (by unfold exLabels; decide +kernel) (by unfold exLabels; decide +kernel) exLabels_good exLabels_sep

theorem exFit_waveNames : exFit.waveNames = [wRho.text, wF2.text, "flat".toList] := by
  have e : exFit.waveNames = appear ((exLabels.map Label.text).map waveNameOf) [] := waveLoop_fst _ _ _ _
  rw [e, List.map_map]
  have : waveNameOf ∘ Label.text = fun l : Label => l.wave.text := by funext l; exact waveNameOf_text l
  rw [this]
  decide +kernel

theorem exFit_integrals : IntegralsOk exFit exLabels where
  nodup := (fill_fresh_waveNames exArgs).1
  map := by
    intro p l hp
    have := fill_fresh_indexMap exArgs (.inl rfl) p l.text (by
      have : exArgs.prodAmpNames = exLabels.map Label.text := rfl
      rw [this, List.getElem?_map, hp]; rfl)
    rwa [waveNameOf_text] at this
  noflat := by
    intro l hl h
    have hf : (⟨.flat, 0⟩ : Label) ∈ exLabels := by unfold exLabels; simp
    exact exLabels_sep _ hf l hl h
  flatOne := by
    intro w hw
    have : exFit.normIntegral.entry w w = if w = w then 1 else 0 := rfl
    rw [this, if_pos rfl]
  herm := by
    intro i j
    have : ∀ i j, exFit.normIntegral.entry i j = if i = j then 1 else 0 := fun _ _ => rfl
    rw [this, this]
    by_cases h : i = j
    · rw [if_pos h, if_pos h.symm]; simp
    · rw [if_neg h, if_neg (Ne.symm h)]; simp

theorem exFit_isWave : IsWave exFit exLabels 0 (.pw wRho) ∧ IsWave exFit exLabels 1 (.pw wF2) := by
  unfold IsWave
  rw [exFit_waveNames]
  refine ⟨⟨rfl, ⟨.pw wRho, 0⟩, ?_, rfl⟩, rfl, ⟨.pw wF2, 0⟩, ?_, rfl⟩ <;> simp [exLabels]

theorem exFit_amps : ampOf exFit exLabels (.pw wRho) 0 = 1 ∧ ampOf exFit exLabels (.pw wRho) 1 = 0 ∧
    ampOf exFit exLabels (.pw wF2) 0 = 1 ∧ ampOf exFit exLabels (.pw wF2) 1 = 1 := by
  have h : ∀ k, exFit.prodAmps k = if k = 2 then 0 else 1 := fun _ => rfl
  have e : ∀ i l, exLabels[i]? = some l → ampOf exFit exLabels l.wave l.rank = if i = 2 then 0 else 1 :=
    fun i l hi => (exFit_labelled.ampOf_eq hi).trans (h i)
  refine ⟨(e 0 ⟨.pw wRho, 0⟩ rfl).trans ?_, (e 2 ⟨.pw wRho, 1⟩ rfl).trans ?_, (e 1 ⟨.pw wF2, 0⟩ rfl).trans ?_, (e 3 ⟨.pw wF2, 1⟩ rfl).trans ?_⟩ <;> simp

/-- the spin-density element of the two waves is 2 (amplitudes (1, 0) and (1, 1), normalized to two events). -/
theorem exFit_spinDens : exFit.spinDens rxLit 0 1 = .ok 2 := by
  rw [spinDensityMatrixElem_eq_partial literalRx_rxLit exFit_labelled 2 (by unfold exLabels; decide +kernel) exFit_isWave.1 exFit_isWave.2]
  obtain ⟨h1, h2, h3, h4⟩ := exFit_amps
  have hN : exFit.normNmbEvents = 2 := rfl
  rw [if_pos (show (Wave.pw wRho).refl = (Wave.pw wF2).refl from rfl), sum_range_succ, sum_range_one, h1, h2, h3, h4, hN]
  simp

/-- hypotheses of the theorems about errors: the phase is defined, the coherence is neither 0 nor 1. -/
example : exFit.covMatrixValid = true ∧ (2 : ℂ) ∈ Complex.slitPlane ∧ ∃ x, exFit.coherence rxLit 0 1 = .ok x ∧ x ≠ 0 ∧ x < 1 := by
  refine ⟨by unfold exFit FitResult.fillA FitResult.fill exArgs; simp, Or.inl (by norm_num), ?_⟩
  refine ⟨_, coherence_eq literalRx_rxLit exFit_labelled 2 (by unfold exLabels; decide +kernel) exFit_isWave.1 exFit_isWave.2, ?_⟩
  obtain ⟨h1, h2, h3, h4⟩ := exFit_amps
  have hN : exFit.normNmbEvents = 2 := rfl
  rw [if_pos (show (Wave.pw wRho).refl = (Wave.pw wF2).refl from rfl)]
  simp only [sum_range_succ, sum_range_zero, h1, h2, h3, h4, hN]
  norm_num
  rw [inv_lt_one₀ (by positivity), Real.lt_sqrt (by norm_num)]
  norm_num

/-- and the interference of the two waves is selected by a pattern together with their intensities. -/
example : ∃ pat i j, i ≠ j ∧ i ∈ exFit.waveIndicesMatching rxLit pat ∧ j ∈ exFit.waveIndicesMatching rxLit pat := by
  refine ⟨['p', 'i'], 0, 1, by decide, ?_, ?_⟩ <;>
    (unfold FitResult.waveIndicesMatching; rw [exFit_waveNames]; decide +kernel)

/-! ### waves whose name contains the name of another wave -/

/-- a wave with an isobar of flat mass dependence, named as `waveNameFromTopology` names it. -/
def wFlatIso : WaveId := ⟨['1', '-'], ['1', '+', '+'], ['0'], true, "=[flat[0+,0++]=[pi-[0,0]pi+][1,0]pi-]".toList⟩

noncomputable def badArgs : FillArgs :=
  { exArgs with prodAmpNames := [(⟨.pw wFlatIso, 0⟩ : Label).text, (⟨.flat, 0⟩ : Label).text], nmbProdAmps := 2, rank := 1, normNmbEvents := 1, prodAmps := (fun _ => 1) }

/-- Finding: with such a wave in the fit, the spin-density element of the flat wave (index 1, amplitude 1) contains the
other wave's amplitude, too: amplitudes are selected by substring match. -/
theorem flat_wave_counts_flat_isobars :
    (FitResult.new.fillA badArgs).waveNames = [wFlatIso.text, "flat".toList] ∧
    (FitResult.new.fillA badArgs).prodAmpNames[1]? = some "V_flat".toList ∧ (FitResult.new.fillA badArgs).prodAmps 1 = 1 ∧
    (FitResult.new.fillA badArgs).spinDens rxLit 1 1 = .ok 2 := by
  set r := FitResult.new.fillA badArgs with hr
  have hn : r.prodAmpNames = [(⟨.pw wFlatIso, 0⟩ : Label).text, (⟨.flat, 0⟩ : Label).text] := rfl
  have hw : r.waveNames = [wFlatIso.text, "flat".toList] := by
    have e : r.waveNames = appear ([(⟨.pw wFlatIso, 0⟩ : Label).text, (⟨.flat, 0⟩ : Label).text].map waveNameOf) [] := waveLoop_fst _ _ _ _
    rw [e]
    simp only [List.map_cons, waveNameOf_text, List.map_nil]
    decide +kernel
  refine ⟨hw, rfl, rfl, ?_⟩
  have hname : r.waveName 1 = .ok "flat".toList := by unfold FitResult.waveName; rw [hw]; rfl
  have hidx : r.prodAmpIndicesForWave rxLit 1 = .ok [0, 1] := by
    unfold FitResult.prodAmpIndicesForWave
    rw [hname]
    refine congrArg Outcome.ok ?_
    unfold FitResult.prodAmpIndicesMatching
    rw [hn, escape_eq _ (by decide)]
    have : r.nmbProdAmps = 2 := rfl
    rw [this]
    simp only [Label.text, repr_digits.1]
    decide +kernel
  have hrank : r.rankOfProdAmp 0 = 0 ∧ r.rankOfProdAmp 1 = -1 := by
    unfold FitResult.rankOfProdAmp
    rw [hn]
    exact ⟨rankOfName_text ⟨.pw wFlatIso, 0⟩, rankOfName_text ⟨.flat, 0⟩⟩
  unfold FitResult.spinDens FitResult.prodAmpIndexPairs
  rw [hname]
  have hrefl : getReflectivity "flat".toList = .ok 0 := rfl
  simp only [Outcome.ok_bind, hrefl, ne_eq, not_true, if_false, hidx]
  have hp : r.pairLoop [0, 1] [0, 1] = [(0, 0), (1, 1)] := by
    unfold FitResult.pairLoop
    simp [List.find?, hrank.1, hrank.2]
  rw [hp]
  have hN : r.normNmbEvents = 1 := rfl
  have hV : ∀ k, r.prodAmps k = 1 := fun _ => rfl
  simp only [List.length_cons, List.length_nil, List.foldl_cons, List.foldl_nil, hV, hN]
  norm_num

/-- Finding: for amplitudes of waves with such isobars the normalization integral used for error propagation is 1, whatever
the integral matrix says. -/
theorem flat_isobar_integral (r : FitResult) (i j : ℕ) (n m : Name) (hi : r.prodAmpNames[i]? = some n) (hj : r.prodAmpNames[j]? = some m)
    (hn : "flat".toList <:+: n) (hm : "flat".toList <:+: m) : r.normIntegralForProdAmp i j = .ok 1 := by
  unfold FitResult.normIntegralForProdAmp FitResult.prodAmpName
  rw [hi, hj]
  simp only [Outcome.ok_bind]
  rw [if_pos (by rw [(hasSub_iff _ _).2 hn, (hasSub_iff _ _).2 hm]; rfl)]

/-- Finding: the error of the coherence comes out too small by the number of events that amplitudes are normalized to. -/
theorem coherenceErr_too_small {rx : Name → Name → Bool} {r : FitResult} {labels : List Label} (hrx : LiteralRx rx) (hL : Labelled r labels) {i j : ℕ}
    (hi : i < r.waveNames.length) (hj : j < r.waveNames.length) (hv : r.covMatrixValid = true) {x : ℝ} (hx : r.coherence rx i j = .ok x) (hx0 : x ≠ 0)
    (hN : 2 ≤ r.normNmbEvents) :
    ∃ f : (ℕ → ℂ) → ℝ, (∀ V, (r.withAmps V).coherence rx i j = .ok (f V)) ∧ ∃ D, IsGradient f r.prodAmps r.nmbProdAmps D ∧
      ∃ err, r.coherenceErr rx i j = .ok err ∧ (0 < propagate r D D → err < Real.sqrt (propagate r D D)) := by
  obtain ⟨f, hf, D, hD, he⟩ := coherenceErr_propagates_partial hrx hL hi hj hv hx hx0
  refine ⟨f, hf, D, hD, _, he, fun hpos => ?_⟩
  have hN' : (1 : ℝ) < r.normNmbEvents := by exact_mod_cast hN
  exact div_lt_self (Real.sqrt_pos.2 hpos) hN'

end Rpwa.Fit

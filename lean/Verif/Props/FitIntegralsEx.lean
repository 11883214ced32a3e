import Verif.Props.FitIntegralsRound
/-! # C87: example -/
namespace Rpwa.FitInts

open Rpwa.Fit Rpwa.Integral Rpwa.Lik Rpwa.PwaFit

/-- integral matrix of two waves with 4 events. -/
noncomputable def exMat : IntMat := ⟨2, ["[1-,0-+,0+]=a", "[1-,1++,1-]=b"], 4, 2, 2, fun i j => if i = j then 16 else 3, []⟩

/-- two waves of different reflectivity; half of the events are accepted. -/
noncomputable def exInp : SetupInput :=
  { ws := [("[1-,0-+,0+]=a", 1, 0), ("[1-,1++,1-]=b", -1, 0)], rank := 1, mass := 1, norm := exMat, acc := { exMat with nmbEvents := 2 }, accEventsOverride := 0,
    amps := fun _ => [6], useNorm := true, prior := .flat, cauchyWidth := 0.5 }

theorem exInp_restorable : Restorable exInp := by
  refine ⟨rfl, rfl, by simp [exInp], ?_, ?_, ⟨rfl, rfl, rfl⟩, ⟨rfl, rfl, rfl⟩, ?_, ?_, ?_, ?_⟩
  · intro w hw
    simp only [exInp, List.mem_cons, List.not_mem_nil, or_false] at hw
    rcases hw with rfl | rfl <;> simp
  · intro w hw
    simp only [exInp, List.mem_cons, List.not_mem_nil, or_false] at hw
    rcases hw with rfl | rfl
    · exact ⟨by show getReflectivity "[1-,0-+,0+]=a".toList = .ok 1; decide +kernel, .inl rfl⟩
    · exact ⟨by show getReflectivity "[1-,1++,1-]=b".toList = .ok (-1); decide +kernel, .inr rfl⟩
  · show (4 : ℕ) ≠ 0; norm_num
  · intro w hw
    simp only [exInp, List.mem_cons, List.not_mem_nil, or_false] at hw
    rcases hw with rfl | rfl <;> simp [exInp, exMat]
  · intro w hw
    simp only [exInp, List.mem_cons, List.not_mem_nil, or_false] at hw
    rcases hw with rfl | rfl <;> simp [exInp, exMat]
  · intro w hw
    simp only [exInp, List.mem_cons, List.not_mem_nil, or_false] at hw
    have e : ∀ a, exMat.entry a a = 16 := by intro a; unfold IntMat.entry; simp [exMat]
    rcases hw with rfl | rfl
    · show 0 < (exMat.entry "[1-,0-+,0+]=a" "[1-,0-+,0+]=a").re ∧ (exMat.entry "[1-,0-+,0+]=a" "[1-,0-+,0+]=a").im = 0
      rw [e]; norm_num
    · show 0 < (exMat.entry "[1-,1++,1-]=b" "[1-,1++,1-]=b").re ∧ (exMat.entry "[1-,1++,1-]=b" "[1-,1++,1-]=b").im = 0
      rw [e]; norm_num

/-- the hypotheses of the round trip are met by a fit with two waves. -/
theorem strip_then_add_example : ∃ (s : LikObj) (r : FitResult), Succeeds LikObj.new (exInp.protocol ["[1-,0-+,0+]=a", "[1-,1++,1-]=b"]) s ∧
    r = FitResult.new.fillA (fillFitResult (likOf exInp s) ⟨false, false⟩ [] (fun _ => 1) 0 (fun _ _ => 0) true true) ∧
    r.accNormIntegral.entry 2 2 = 1 / 2 ∧ addMain exInp.norm false exInp.acc (stripMain false [r]) = .ok (some [r]) := by
  have hdiag : exInp.DiagOk := by
    intro i hi
    obtain ⟨w, hw, ew, _⟩ := exInp.waveName_mem i hi
    unfold SetupInput.ints
    dsimp only
    rw [if_pos ⟨rfl, hi, hi⟩, Complex.div_natCast_re, Complex.div_natCast_im, ← ew, (exInp_restorable.hpos w hw).2, zero_div]
    exact ⟨div_nonneg (exInp_restorable.hpos w hw).1.le (Nat.cast_nonneg _), rfl⟩
  have hu : exInp.Usable 1 := by
    refine ⟨fun w hw => (exInp_restorable.hrefl w hw).2, by simp [exInp], exInp_restorable.hnodup, exInp_restorable.hnormWF, exInp_restorable.haccWF,
      exInp_restorable.hnorm, exInp_restorable.hacc, by norm_num, fun _ _ => rfl, ?_⟩
    intro _ i hi hz
    obtain ⟨w, hw, ew, _⟩ := exInp.waveName_mem i hi
    exfalso
    have := (exInp_restorable.hpos w hw).1
    unfold SetupInput.ints at hz
    dsimp only at hz
    rw [if_pos ⟨rfl, hi, hi⟩, ← ew] at hz
    rcases div_eq_zero_iff.1 hz with h | h
    · rw [h] at this; simp at this
    · exact exInp_restorable.hgen (by exact_mod_cast h)
  obtain ⟨s, hs⟩ := exInp.setup_returns hdiag 1 hu ["[1-,0-+,0+]=a", "[1-,1++,1-]=b"] (by intro w; simp [exInp])
  refine ⟨s, _, hs, rfl, ?_, strip_then_add exInp exInp_restorable _ s hs (by show 0 < 1; norm_num) ⟨false, false⟩ rfl [] (fun _ => 1) 0 (fun _ _ => 0)
    true true _ rfl⟩
  obtain ⟨d, N, hd, hN, hok, hall, hfin⟩ := exInp.protocol_spec hdiag _ s hs
  have e1 : s.totAcc = exInp.totAcc := by rw [hfin]; rfl
  have e2 : exInp.totAcc = 1 / 2 := by
    show ((2 : ℕ) : ℝ) / ((4 : ℕ) : ℝ) = 1 / 2
    norm_num
  have e3 : (FitResult.new.fillA (fillFitResult (likOf exInp s) ⟨false, false⟩ [] (fun _ => 1) 0 (fun _ _ => 0) true true)).accNormIntegral =
      integralMatrix exInp.waves.nW s.ints.acc s.totAcc := rfl
  rw [e3, e1, e2]
  have h0 : exInp.waves.nW 0 = 1 := rfl
  have h1 : exInp.waves.nW 1 = 1 := rfl
  unfold integralMatrix
  dsimp only
  rw [h0, h1, if_neg (by norm_num), if_pos ⟨rfl, rfl⟩]
  norm_num

/-- the hypotheses of the theorem about trees are met by stripped results of this fit; the second one gets a wrong acceptance. -/
theorem add_tree_example : ∃ (r : FitResult) (rs' : List FitResult), IsFit (fitWaves exInp) r ∧ hasIntegrals r = false ∧
    addMain exInp.norm false exInp.acc [r, r] = .ok (some rs') ∧ (∀ r', rs'[0]? = some r' → r'.accNormIntegral.entry 2 2 = 1 / 2) ∧
    ∀ r', rs'[1]? = some r' → r'.accNormIntegral.entry 2 2 = 1 := by
  let a : FillArgs := ⟨1, 1, [], 0, 1, 3, fun _ => 1, ["V0_[1-,1++,1-]=b".toList, "V0_[1-,0-+,0+]=a".toList, "V_flat".toList], none, 3, fun _ => (0, 0),
    none, none, none, true, true⟩
  have hw : (FitResult.new.fillA a).waveNames = fitWaves exInp ++ ["flat".toList] := by
    have e1 : (FitResult.new.fillA a).waveNames = appear (a.prodAmpNames.map waveNameOf) [] := waveLoop_fst _ _ _ _
    have e2 : fitWaves exInp = ["[1-,1++,1-]=b".toList, "[1-,0-+,0+]=a".toList] := rfl
    rw [e1, e2]
    decide +kernel
  have hfit : IsFit (fitWaves exInp) (FitResult.new.fillA a) := ⟨hw, ⟨a, rfl⟩⟩
  have hno : hasIntegrals (FitResult.new.fillA a) = false := by simp [hasIntegrals, FitResult.fillA, FitResult.fill, Mat.empty, a]
  obtain ⟨rs', h1, h2, h3⟩ := add_tree exInp.norm exInp.acc false [FitResult.new.fillA a, FitResult.new.fillA a] (by
    intro r hr
    have : r = FitResult.new.fillA a := by simpa using hr
    subst this
    exact ⟨fitWaves exInp, hfit, covers_of exInp exInp_restorable, by rw [hno]; simp⟩)
  have hlen : (fitWaves exInp).length = 2 := rfl
  have key : ∀ (k : ℕ) (r' : FitResult), k < 2 → rs'[k]? = some r' → r'.accNormIntegral.entry 2 2 = ((if k = 0 then (1 / 2 : ℝ) else 1 : ℝ) : ℂ) := by
    intro k r' hk hk'
    obtain ⟨_, w, g1, g2⟩ := h3 k (FitResult.new.fillA a) r' (by rcases (by omega : k = 0 ∨ k = 1) with rfl | rfl <;> rfl) hk'
    have hwl : w.length = 2 := by
      have := congrArg List.length (hw.symm.trans g1)
      simp only [List.length_append, hlen] at this
      simpa using this.symm
    have := g2.hflat.2.1
    rw [hwl] at this
    rw [this]
    have e : ((exInp.acc.nmbEvents : ℕ) : ℝ) / ((exInp.norm.nmbEvents : ℕ) : ℝ) = 1 / 2 := by
      show ((2 : ℕ) : ℝ) / ((4 : ℕ) : ℝ) = 1 / 2
      norm_num
    rw [e]
  refine ⟨_, rs', hfit, hno, h1, ?_, ?_⟩
  · intro r' h
    rw [key 0 r' (by norm_num) h, if_pos rfl]; norm_num
  · intro r' h
    rw [key 1 r' (by norm_num) h, if_neg (by norm_num)]; norm_num

end Rpwa.FitInts

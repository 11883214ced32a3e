import Verif.Props.Plots
import Mathlib.Tactic.NormNum
/-! # C99: examples -/
namespace Rpwa.Plots

/-- values `(v, e)` of the intensity of the waves in the mass bins that are given, and phases. -/
def elems (l : List (ℕ × ℕ)) (ph : ℕ → ℚ) : Elems ℚ where
  int m w := if (m, w) ∈ l then (2, 1) else (0, 0)
  re _ _ _ := (0, 0)
  im _ _ _ := (0, 0)
  ph m w j := if (m, w) ∈ l ∧ (m, j) ∈ l ∧ w ≠ j then (ph m, 1) else (0, 0)

/-- two mass bins; the first wave has no result in the first one. -/
def twoBins (sys : List (ℕ × ℕ)) : Bin ℚ where
  nMass := 2
  centers m := 1 + m
  nWaves := 2
  val := elems [(0, 1), (1, 0), (1, 1)] fun _ => 170
  hasSys := true
  sys := elems sys fun _ => 169
  limits _ _ := (0, 1)

def flat (v : ℚ) : Curves ℚ where
  int _ _ _ := 2
  comps _ := [fun _ _ => 1]
  ps _ x _ := x
  elem _ _ _ _ := (1, 1)
  phase _ _ _ _ := v

/-- **C99.** Data and systematics in the same mass bins: both are shifted. -/
example : ∃ r, createPlotsWavePair (twoBins [(0, 1), (1, 0), (1, 1)]) (flat (-180)) false 1 0 1 = .ok r ∧
    r.ph = [⟨2, -190, some (1 / 2), 1⟩] ∧ r.phSys = [⟨2, -275, some (1 / 2), -84⟩] := by
  refine ⟨_, rfl, ?_, ?_⟩ <;> decide +kernel

/-- **C99.** Systematics of the first wave in the first mass bin too: the wrong point is shifted. -/
theorem sys_wrong_point : ∃ r, createPlotsWavePair (twoBins [(0, 0), (0, 1), (1, 0), (1, 1)]) (flat (-180)) false 1 0 1 = .ok r ∧
    r.ph = [⟨2, -190, some (1 / 2), 1⟩] ∧ r.phSys = [⟨1, -275, some (1 / 2), -84⟩, ⟨2, 85, some (1 / 2), -84⟩] := by
  refine ⟨_, rfl, ?_, ?_⟩ <;> decide +kernel

/-- **C99.** Systematics without the second wave: an empty band is drawn. -/
theorem sys_empty_band : ∃ r, createPlotsWavePair (twoBins [(1, 0)]) (flat (-180)) false 1 0 1 = .ok r ∧
    zeroWave (twoBins [(1, 0)]).sys 2 1 1 = true ∧ r.reSys = [⟨2, 0, some (1 / 2), 0⟩] := by
  refine ⟨_, rfl, ?_, ?_⟩ <;> decide +kernel

/-- the hypotheses of `pair_spec`. -/
example : (twoBins [(0, 1), (1, 0), (1, 1)]).nMass ≠ 0 ∧ ((twoBins [(0, 1), (1, 0), (1, 1)]).limits 0 1).2 < (twoBins [(0, 1), (1, 0), (1, 1)]).nMass ∧
    ∀ m < (twoBins [(0, 1), (1, 0), (1, 1)]).nMass,
      showPairSys (twoBins [(0, 1), (1, 0), (1, 1)]) 0 1 m = showPair (twoBins [(0, 1), (1, 0), (1, 1)]) 0 1 m := by
  decide +kernel

/-- a phase that turns by 90 degrees from point to point. -/
def turning (p : ℕ) : ℚ := [0, 90, 180, -90].getD (p % 4) 0

/-- **C99.** After more than five turns the curve jumps back by 270 degrees. -/
theorem turning_jumps : (∀ p < 23, unwrapped turning p = 90 * p) ∧ unwrapped turning 23 = 1710 ∧ (90 * 23 : ℚ) = 2070 := by
  refine ⟨?_, ?_, by norm_num⟩ <;> decide +kernel

/-- the hypotheses of `phase_continuous`. -/
example : ∀ p ≤ 8, unwrapped turning p = 90 * p := by
  refine phase_continuous turning (fun p => 90 * p) 8 (by simp [turning]) (fun p hp => ?_) (fun p _ => ?_)
  · refine ⟨((p : ℤ) + 1) / 4, by omega, by omega, ?_⟩
    interval_cases p <;> simp [turning] <;> norm_num
  · push_cast
    rw [show 90 * ((p : ℚ) + 1) - 90 * p = 90 by ring]
    norm_num

/-- mass bins of the same width. -/
example : gridMass (twoBins []) 4 3 = 1 + 3 / 4 := by
  have := grid_even (twoBins []) (eb := 4) (by norm_num) 1 1 (by decide) (fun m _ => by simp [twoBins]) (p := 3) (by decide)
  rw [this]; norm_num

/-- the plots of two bins. -/
example : createPlots [2, 1] (some 1) true true =
    [.wave (some 0) 0 0, .wave (some 0) 0 1, .pair (some 0) 0 0 1, .wave (some 1) 1 0, .sum 0, .sum 1, .fsmd none 0] := by decide

end Rpwa.Plots

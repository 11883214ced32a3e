import Verif.Props.WaveList
import Mathlib.Tactic.NormNum
import Mathlib.Tactic.IntervalCases
/-! # C91: examples -/
namespace Rpwa.Select

open Rpwa.Fit Rpwa.PwaFit

/-- a result with this mass bin, likelihood and convergence flag. -/
noncomputable def exFit (lo hi l : ℝ) (c : Bool) : FitResult :=
  { FitResult.new with multibin := [("mass".toList, lo, hi)], logLikelihood := l, converged := c }

theorem exFit_mass (lo hi l : ℝ) (c : Bool) : massBinCenter (exFit lo hi l c) = (lo + hi) / 2 := rfl

/-- four results: the nearest and best one has not converged, two of the others are as near as each other. -/
noncomputable def exFits : List FitResult := [exFit 1 2 (-9) false, exFit 2 3 (-1) true, exFit 1 2 (-3) true, exFit 1 2 (-3) true]

/-- the result nearest to 1.6 is the third entry: entry 0 has not converged, entry 3 is as good but later. -/
example : getBestFitResultFromFile (some 1.6) exFits = some (exFit 1 2 (-3) true) := by
  rw [best_result_iff]
  refine ⟨2, rfl, rfl, fun j r' hj hr => ?_⟩
  have hlt : j < 4 := (List.getElem?_eq_some_iff.1 hj).1
  have h3 : ¬ Better (some 1.6) (exFit 1 2 (-3) true) (exFit 1 2 (-3) true) := Better.irrefl
  interval_cases j
  · cases Option.some.inj hj; cases hr
  · cases Option.some.inj hj
    have : Better (some 1.6) (exFit 1 2 (-3) true) (exFit 2 3 (-1) true) := by
      left
      show |(1.6 : ℝ) - (1 + 2) / 2| < |(1.6 : ℝ) - (2 + 3) / 2|
      rw [abs_of_pos (by norm_num), abs_of_neg (by norm_num)]; norm_num
    exact ⟨fun h => Better.irrefl (this.trans h), fun _ => this⟩
  · cases Option.some.inj hj; exact ⟨h3, fun h => absurd h (by omega)⟩
  · cases Option.some.inj hj; exact ⟨h3, fun h => absurd h (by omega)⟩

/-- without a mass, and with a mass far away from all bins, a result is returned nevertheless. -/
example : getBestFitResultFromFile (some 1000) exFits ≠ none ∧ getBestFitResultFromFile none exFits ≠ none := by
  constructor <;>
  · rw [ne_eq, no_result_iff]
    intro h
    have := h (exFit 2 3 (-1) true) (by simp [exFits])
    cases this

/-- two bins in mass and t': the mass centres of the first two are the same. -/
def exBins : List (Best.Attempt (ℕ × ℕ) String) :=
  [⟨(1, 0), -5, true, "a"⟩, ⟨(1, 1), -7, true, "b"⟩, ⟨(2, 0), -1, true, "c"⟩, ⟨(2, 0), -9, false, "d"⟩, ⟨(2, 0), -2, true, "e"⟩]

noncomputable def exCenter (k : ℕ × ℕ) : Option ℝ := some k.1

theorem exBest1 : BestOfBin exBins (1, 0) ⟨(1, 0), -5, true, "a"⟩ :=
  ⟨0, ⟨_, rfl, trivial, fun m b hb _ => by
    have hlt : m < 1 := (List.getElem?_eq_some_iff.1 hb).1
    interval_cases m
    cases Option.some.inj hb
    exact ⟨le_refl _, fun h => absurd h (by omega)⟩⟩, rfl⟩

theorem exBest2 : BestOfBin exBins (1, 1) ⟨(1, 1), -7, true, "b"⟩ :=
  ⟨0, ⟨_, rfl, trivial, fun m b hb _ => by
    have hlt : m < 1 := (List.getElem?_eq_some_iff.1 hb).1
    interval_cases m
    cases Option.some.inj hb
    exact ⟨le_refl _, fun h => absurd h (by omega)⟩⟩, rfl⟩

/-- one of the two results of the mass bin is lost, and which one depends on the order of a dictionary. -/
example : (∃ order : List ((ℕ × ℕ) × List (Best.Stored (ℕ × ℕ) String)) → List ((ℕ × ℕ) × List (Best.Stored (ℕ × ℕ) String)),
      (∀ l, (order l).Perm l) ∧ ∃ d, getBestFitResultsFromFile exCenter order exBins = .ok d ∧ d 1 = some ⟨(1, 0), -5, true, "a"⟩) ∧
    ∃ order : List ((ℕ × ℕ) × List (Best.Stored (ℕ × ℕ) String)) → List ((ℕ × ℕ) × List (Best.Stored (ℕ × ℕ) String)),
      (∀ l, (order l).Perm l) ∧ ∃ d, getBestFitResultsFromFile exCenter order exBins = .ok d ∧ d 1 = some ⟨(1, 1), -7, true, "b"⟩ :=
  ⟨same_centre_overwritten exCenter exBins (fun _ _ _ => rfl) _ exBest1 1 (by simp [exCenter]),
    same_centre_overwritten exCenter exBins (fun _ _ _ => rfl) _ exBest2 1 (by simp [exCenter])⟩

/-- the third and fifth attempts alone: all bins have different centres. -/
example : ∃ d, getBestFitResultsFromFile exCenter id (exBins.drop 1) = .ok d ∧
    ∀ m a, d m = some a ↔ exCenter a.bin = some m ∧ BestOfBin (exBins.drop 1) a.bin a := by
  refine best_results_complete exCenter id (fun _ => .refl _) _ (fun _ _ _ => rfl) ?_
  intro a ha b hb _ _ h
  have h1 : a.bin.1 = b.bin.1 := by
    have := Option.some.inj h
    exact_mod_cast this
  simp only [exBins, List.drop_succ_cons, List.drop_zero, List.mem_cons, List.not_mem_nil, or_false] at ha hb
  rcases ha with rfl | rfl | rfl | rfl <;> rcases hb with rfl | rfl | rfl | rfl <;> first | rfl | (simp at h1)

/-- a wave list with a comment, a threshold and a wave without one. -/
example (float : Name → Option ℝ) (desc : Name → Option ℤ) (hf : float "0.9".toList = some 0.9)
    (h1 : desc "a".toList = some 1) (h2 : desc "b".toList = some (-1)) :
    getWaveDescThresFromWaveList float desc "# waves\na 0.9\n  b\t\n".toList = .ok [("a", 1, 0.9), ("b", -1, 0)] := by
  have nil : Blanks [] := by intro c hc; simp at hc
  have hA : ∀ c ∈ ['a', '9', 'b'], c ∉ [' ', '\t', '\n', '\r', '\x0b', '\x0c'] := by decide
  have h := (wave_list_iff float desc ["# waves".toList, "a 0.9".toList, "  b\t".toList] (by decide)
    [("a", 1, 0.9), ("b", -1, 0)]).2
  refine h ⟨[[], [("a", 1, 0.9)], [("b", -1, 0)]], .cons ?_ (.cons ?_ (.cons ?_ .nil)), rfl⟩
  · exact ⟨[], "# waves".toList, [], rfl, nil, nil, ⟨⟨'#', rfl, by decide⟩, ⟨'s', rfl, by decide⟩⟩, .comment _⟩
  · exact ⟨[], "a 0.9".toList, [], rfl, nil, nil, ⟨⟨'a', rfl, by decide⟩, ⟨'9', rfl, by decide⟩⟩,
      .threshold "a".toList "0.9".toList 1 0.9 (by decide) (by decide) (by decide) h1 hf⟩
  · exact ⟨[' ', ' '], ['b'], ['\t'], rfl, by unfold Blanks; decide, by unfold Blanks; decide, ⟨⟨'b', rfl, by decide⟩, ⟨'b', rfl, by decide⟩⟩,
      .wave "b".toList (-1) (by decide) (by decide) h2⟩

/-- the hypotheses of the round trip can be met. -/
example (float : Name → Option ℝ) (hf : float "0.9".toList = some 0.9) :
    getWaveDescThresFromWaveList float (fun _ => some 1) (writeWaveList [("a".toList, some "0.9".toList), ("b".toList, none)]) =
      .ok [("a", 1, 0.9), ("b", 1, 0)] := by
  refine wave_list_round_trip float _ _ (fun _ => 1) (fun _ => 0.9) ?_ ?_
  · intro w hw
    simp only [List.mem_cons, List.not_mem_nil, or_false] at hw
    rcases hw with rfl | rfl <;> exact ⟨by decide, by decide, by decide, rfl⟩
  · intro w hw t ht
    simp only [List.mem_cons, List.not_mem_nil, or_false] at hw
    rcases hw with rfl | rfl
    · cases Option.some.inj ht; exact ⟨by decide, by decide, hf⟩
    · cases ht

end Rpwa.Select

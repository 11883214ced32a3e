import Verif.Props.FitReadSys
import Mathlib.Tactic.NormNum
import Mathlib.Data.Rat.Defs
import Mathlib.Algebra.Order.Field.Rat
import Mathlib.Algebra.Order.Ring.Unbundled.Rat
/-! # C101: examples -/
namespace Rpwa.FitRead

/-- the entries of a tree are in any order. -/
theorem ex_file : readFile (1 / 1000 : ℚ) [3, 1, 2] = .ok ([1, 2, 3], [1, 2, 0]) ∧ readFile (1 / 1000 : ℚ) [5] = .ok ([5], [0]) ∧
    readFile (1 / 1000 : ℚ) [1, 2, 1] = .terminate ∧ readFile (1 / 1000 : ℚ) [1, 2, 4] = .terminate := by
  refine ⟨?_, ?_, ?_, ?_⟩ <;> decide +kernel

theorem ex_goodFile : GoodFile (1 / 1000 : ℚ) [3, 1, 2] [1, 2, 3] [1, 2, 0] := (readFile_ok _ (by norm_num) _ _ _).1 ex_file.1

/-- two entries that are both near a third one, but not near each other. -/
theorem ex_chain : readFile (1 / 10 : ℚ) [0, 6 / 100, 12 / 100] = .terminate := by decide +kernel

/-- two files of systematics, one in another order; the phase of the second mass bin is turned. -/
theorem ex_bands : bandsOf (1 / 1000 : ℚ) rotate [1, 2] [10, 170] [[(2, -175), (1, 20)], [(1, 5), (2, 160)]] = .ok [(5, 20), (160, 185)] ∧
    bandsOf (1 / 1000 : ℚ) (fun _ v => v) [1, 2] [10, 170] [[(2, -175), (1, 20)], [(1, 5), (2, 160)]] = .ok [(5, 20), (-175, 170)] ∧
    bandsOf (1 / 1000 : ℚ) rotate [1, 2] [10, 170] [[(1, 20)]] = .terminate := by
  refine ⟨?_, ?_, ?_⟩ <;> decide +kernel

/-- the waves of a fit are some of the waves of a result, in another order. -/
theorem ex_waves : readWaves ["b", "a"] ["a", "b", "flat"] [⟨"a", 0, (7 : ℤ)⟩, ⟨"flat", 1, 8⟩, ⟨"b", 0, 9⟩] = .ok ([9, 7], [2, 0]) ∧
    readWaves ["b", "a"] ["a", "b", "flat"] [⟨"a", 0, (7 : ℤ)⟩, ⟨"flat", 0, 8⟩, ⟨"b", 1, 9⟩] = .terminate ∧
    readWaves ["b", "c"] ["a", "b", "flat"] [⟨"a", 0, (7 : ℤ)⟩, ⟨"flat", 0, 8⟩, ⟨"b", 0, 9⟩] = .terminate := by
  refine ⟨?_, ?_, ?_⟩ <;> decide +kernel

/-- covariances of two waves. -/
theorem ex_sdCov : sdCov 2 (3 : ℚ) (fun i j k l => 100 * i + 10 * j + k + l) 2 3 = 33 ∧ sdCov 2 (3 : ℚ) (fun i j k l => 100 * i + 10 * j + k + l) 4 4 = 330 ∧
    sdCov 2 (3 : ℚ) (fun i j k l => 100 * i + 10 * j + k + l) 2 4 = 0 := by
  refine ⟨?_, ?_, ?_⟩ <;> decide +kernel

end Rpwa.FitRead

import Verif.Model.FitCov
import Verif.Model.ResonanceFit
/-!
# Data of a resonance fit: blocks of the weight matrices (resonanceFit/data.cc:205-227)
-/
namespace Rpwa.FitData

open Rpwa.FitCov (Mat UseCov)
open Rpwa.ResFit (Covariance)

/-- data.cc:218: row of a pair; `2*(jWave-iWave)` is computed modulo 2^64, the sum is not negative also for `j < i`. -/
def invBase (n i j : ℕ) : ℕ := n * (n + 1) + 2 * j - (n - i) * (n - i + 1) - 2 * i

/-- data.cc:219-222: the block that is stored for a pair (for `j < i` it is the block of another pair, function.cc only reads `i ≤ j`). -/
def invArray (n : ℕ) (W : Mat ℝ) (i j : ℕ) (k l : Fin 2) : ℝ := W (invBase n i j + k) (invBase n i j + l)

/-- function.h:56-61 in the two models. -/
def covarianceOf : UseCov → Covariance
  | .diagonal => .diagonalOnly
  | .complexDiagonal => .complexDiagonalOnly
  | .full => .full

end Rpwa.FitData

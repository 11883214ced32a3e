import Verif.Model.DataObj
/-!
# Looking up the anchor waves of a resonance fit (resonanceFitReadData.cc, `readData`)

Simplifications: arrays as in `Model/Arrays`, `throw;` ends the program; the number of bins of the input is that of the list of numbers of waves
(one entry per bin is set by `readInFiles`). -/
namespace Rpwa.DataObj

open Rpwa.Arrays

/-- resonanceFitReadData.cc:1388: `std::find` in the names of the waves of one bin, from index `i`; `k` names are left. -/
def findWave (names : Arr String) (b : ℕ) (name : String) : ℕ → ℕ → Outcome ℕ
  | 0, i => .ok i
  | k + 1, i => do
    let v ← names.at [b, i]
    if v = name then .ok i else findWave names b name k (i + 1)

/-- resonanceFitReadData.cc:1387-1393: the loop over the bins, from bin `b`; the numbers of waves and the anchor waves that are left. -/
def anchorLoop (names : Arr String) : List ℕ → List String → ℕ → Outcome (List ℕ)
  | [], _, _ => .ok []
  | _ :: _, [], _ => .ub
  | n :: ns, a :: as, b => do
    let i ← findWave names b a n 0
    if n ≤ i then .terminate else do
      let rest ← anchorLoop names ns as (b + 1)
      .ok (i :: rest)

/-- resonanceFitReadData.cc:1382-1394: the indices of the anchor waves. -/
def anchorIndices (names : Arr String) (nrWaves : List ℕ) (anchors : List String) : Outcome (List ℕ) :=
  if nrWaves.length ≠ anchors.length then .terminate else anchorLoop names nrWaves anchors 0

end Rpwa.DataObj

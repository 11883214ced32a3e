import Verif.Model.Anchors
/-! # Specification of the anchor waves (C108) -/
namespace Rpwa.DataObj

open Rpwa.Arrays

/-- every bin has a wave with the name of its anchor wave. -/
def HasAnchors (names : Arr String) (nrWaves : List ℕ) (anchors : List String) : Prop :=
  anchors.length = nrWaves.length ∧ ∀ (b n : ℕ) (a : String), nrWaves[b]? = some n → anchors[b]? = some a → ∃ i < n, names.elem [b, i] = a

/-- one index per bin: the first wave of the bin with the name of its anchor wave. -/
def AreAnchors (names : Arr String) (nrWaves : List ℕ) (anchors : List String) (r : List ℕ) : Prop :=
  r.length = nrWaves.length ∧ ∀ (b n : ℕ) (a : String) (i : ℕ), nrWaves[b]? = some n → anchors[b]? = some a → r[b]? = some i →
    i < n ∧ names.elem [b, i] = a ∧ ∀ j < i, names.elem [b, j] ≠ a

end Rpwa.DataObj

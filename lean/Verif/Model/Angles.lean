import Mathlib.Data.List.Sort
import Mathlib.Data.Rat.Defs
/-!
# Histograms of masses and angles (pyInterface/scripts/plotAngles.py)

A permutation is the list of its values. Indices of final-state particles are in the range of the list (otherwise the script ends with an exception);
outside the value is 0 here. The keys of a dictionary come in some order, and in the same one while no key is added. Not modelled: reading and
boosting of events, histograms, titles besides the number of entries.
-/
namespace Rpwa.Angles

/-- an entry of a list of symmetrizations: permutation of final-state particles and factor -/
structure Sym where
  map : List ℕ
  factor : ℚ
deriving DecidableEq

/-- plotAngles.py:18-24: one step of `combineSyms`; the script exits if the lengths differ. -/
def combineOne (iso bose : Sym) : Option Sym :=
  if iso.map.length ≠ bose.map.length then none
  else some ⟨(List.range iso.map.length).map fun i => bose.map.getD (iso.map.getD i 0) 0, bose.factor * iso.factor⟩

/-- plotAngles.py:15-26 -/
def combineSyms (boseSyms isoSyms : List Sym) : Option (List Sym) :=
  (isoSyms.mapM fun iso => boseSyms.mapM fun bose => combineOne iso bose).map List.flatten

/-- indices of the final-state particles below a vertex and below its daughters (plotAngles.py:39-51) -/
structure Vertex where
  parts : List ℕ
  parts1 : List ℕ
  parts2 : List ℕ
deriving DecidableEq

/-- plotAngles.py:57-60: the particles that a permutation puts to these places, sorted. -/
def group (p : List ℕ) (fs : List ℕ) : List ℕ := (fs.map fun x => p.getD x 0).insertionSort (· ≤ ·)

/-- plotAngles.py:62-76: the inner loop over the keys before this one; it ends when both flags are set. -/
def scan (v : Vertex) (p : List ℕ) : List (List ℕ) → Bool × Bool → Bool × Bool
  | [], s => s
  | t :: ts, s =>
    let mass := s.1 || (group p v.parts == group t v.parts)
    let angles := s.2 || (group p v.parts1 == group t v.parts1 && group p v.parts2 == group t v.parts2)
    if mass && angles then (mass, angles) else scan v p ts (mass, angles)

/-- plotAngles.py:53-77: what is stored for the key at this position: are masses, are angles filled? -/
def flags (keys : List (List ℕ)) (v : Vertex) (i : ℕ) : Bool × Bool :=
  let s := scan v (keys.getD i []) (keys.take i) (false, false)
  (!s.1, !s.2)

/-- plotAngles.py:334-374: the histograms of masses that are filled for one event, with the permutation they are filled for. -/
def massFills (keys : List (List ℕ)) (vs : List Vertex) : List (ℕ × ℕ) :=
  (List.range keys.length).flatMap fun i => ((List.range vs.length).filter fun k => (flags keys (vs.getD k ⟨[], [], []⟩) i).1).map fun k => (i, k)

/-- plotAngles.py:334-374: the histograms of angles. -/
def angleFills (keys : List (List ℕ)) (vs : List Vertex) : List (ℕ × ℕ) :=
  (List.range keys.length).flatMap fun i => ((List.range vs.length).filter fun k => (flags keys (vs.getD k ⟨[], [], []⟩) i).2).map fun k => (i, k)

/-- plotAngles.py:232-239: entries per event in the title of the histogram of masses. -/
def massTitle (keys : List (List ℕ)) (v : Vertex) : ℕ := ((List.range keys.length).filter fun i => (flags keys v i).1).length

/-- plotAngles.py:232-239: entries per event in the title of the histograms of angles. -/
def angleTitle (keys : List (List ℕ)) (v : Vertex) : ℕ := ((List.range keys.length).filter fun i => (flags keys v i).2).length

/-- plotAngles.py:96-108: is the histogram of two isobars to be filled for the key at this position? -/
def comboFlag (keys : List (List ℕ)) (c : Vertex × Vertex) (i : ℕ) : Bool :=
  !((keys.take i).any fun t => group (keys.getD i []) c.1.parts == group t c.1.parts && group (keys.getD i []) c.2.parts == group t c.2.parts)

/-- plotAngles.py:82-109: flags of all combinations for the key at this position. -/
def comboFlags (keys : List (List ℕ)) (cs : List (Vertex × Vertex)) (i : ℕ) : List Bool := cs.map fun c => comboFlag keys c i

/-- plotAngles.py:279-286: entries per event in the title of the histogram of a combination. -/
def comboTitle (keys : List (List ℕ)) (c : Vertex × Vertex) : ℕ := ((List.range keys.length).filter fun i => comboFlag keys c i).length

/-- plotAngles.py:376-381: the histograms of combinations that are filled for one event; the test is for the list, not for its element. -/
def comboFills (keys : List (List ℕ)) (cs : List (Vertex × Vertex)) : List (ℕ × ℕ) :=
  (List.range keys.length).flatMap fun i => (List.range cs.length).flatMap fun k => if (comboFlags keys cs i).isEmpty then [] else [(i, k)]

end Rpwa.Angles

import Verif.Model.Angles
import Mathlib.Data.Multiset.Dedup
import Mathlib.Data.Finset.Card
/-! # Specification: masses and angles of an event (C103) -/
namespace Rpwa.Angles

/-- particle at a place. -/
def at' (p : List ℕ) (x : ℕ) : ℕ := p.getD x 0

/-- two permutations put the same particles to these places, in any order. -/
def Same (fs p q : List ℕ) : Prop := (fs.map (at' p)).Perm (fs.map (at' q))

/-- the mass of this vertex is the same. -/
def SameMass (v : Vertex) (p q : List ℕ) : Prop := Same v.parts p q

/-- the angles of the first daughter of this vertex are the same. -/
def SameAngles (v : Vertex) (p q : List ℕ) : Prop := Same v.parts1 p q ∧ Same v.parts2 p q

/-- the masses of both isobars are the same. -/
def SameMasses (c : Vertex × Vertex) (p q : List ℕ) : Prop := Same c.1.parts p q ∧ Same c.2.parts p q

/-- the particles that permutations put to these places. -/
def combos (fs : List ℕ) (keys : List (List ℕ)) : Finset (Multiset ℕ) := (keys.map fun p => (↑(fs.map (at' p)) : Multiset ℕ)).toFinset

end Rpwa.Angles

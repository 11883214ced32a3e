import Verif.Model.Deweight
import Verif.Props.Storage
import Mathlib.MeasureTheory.Constructions.Pi
import Mathlib.MeasureTheory.Measure.Lebesgue.Basic
import Mathlib.MeasureTheory.Integral.Pi
/-! # Specification of the de-weighting of Monte Carlo events (C93) -/
namespace Rpwa.Deweight

open Rpwa.Storage MeasureTheory

/-- `m` is the largest of the weights, but not less than zero. -/
structure IsMaxWeight (ws : List ℝ) (m : ℝ) : Prop where
  nonneg : 0 ≤ m
  bound : ∀ w ∈ ws, w ≤ m
  attained : m ∈ ws ∨ m = 0

/-- an event without its entry `idx`. -/
def dropVal (idx : ℕ) (r : Row) : Row := ⟨r.prod, r.decay, r.vals.eraseIdx idx⟩

open Classical in
/-- the events with the numbers `keep`, in order, without the weight. -/
noncomputable def kept (keep : ℕ → Prop) (idx : ℕ) (rows : List Row) : List Row :=
  (rows.zipIdx.filter fun e => decide (keep e.2)).map fun e => dropVal idx e.1

/-- the weights stored in a file. -/
def weights (val : Dbl → ℝ) (idx : ℕ) (rows : List Row) : List ℝ := rows.map fun r => val (r.vals.getD idx Dbl.zero)

/-- a readable event file with weights: the variable "weight" is number `idx`. -/
structure Weighted (em : EventMeta) (t : Tree) (idx : ℕ) : Prop where
  file : WellFormed em t
  shape : ∀ r ∈ t.rows, r.prod.length = em.prodNames.length ∧ r.decay.length = em.decayNames.length
  name : em.addNames[idx]? = some "weight"
  first : ∀ i < idx, em.addNames[i]? ≠ some "weight"

/-- `n` independent random numbers, uniform between 0 and 1. -/
noncomputable def uniform (n : ℕ) : Measure (Fin n → ℝ) := Measure.pi fun _ => volume.restrict (Set.Icc 0 1)

/-- the sequence of the random numbers. -/
noncomputable def seq {n : ℕ} (ω : Fin n → ℝ) (i : ℕ) : ℝ := if h : i < n then ω ⟨i, h⟩ else 0

/-- the events of the file written by `deWeight` (nothing if there is none). -/
noncomputable def outRows (md5 : Hashor → String) (val : Dbl → ℝ) (f : ℝ) (rnd : ℕ → ℝ) (em : EventMeta) : List Row :=
  match deWeight md5 val f rnd em with
  | .ok r => match r.1.tree with
    | some t => t.rows
    | none => []
  | _ => []

/-- a file with this content: auxiliary string, particles, limits, names and events; type real, no auxiliary values; the hash is that of the
content if the names can be read back. -/
structure FileOf (md5 : Hashor → String) (m : EventMeta) (aux : String) (prodNames decayNames : List String) (bounds : Bounds) (names : List String) (rows : List Row) : Prop where
  auxString : m.auxString = aux
  type : m.eventsType = .real
  prod : m.prodNames = prodNames
  decay : m.decayNames = decayNames
  limits : m.bounds = bounds
  addNames : m.addNames = names
  values : ∀ v, m.auxValues v = none
  tree : m.tree = some ⟨names, rows⟩
  hash : GoodNames names → m.contentHash = m.recalculateHash md5

/-- the limits of the mass. -/
noncomputable def genBounds (o : GenOptions) : Bounds := fun v => if v = "mass" then some o.massRange else none

/-- the additional values of a generated event besides the weight: first the mass, then t', or none. -/
def genVars (o : GenOptions) (e : GenEvent) : List Dbl := if o.names.isSome then [e.mass, e.tPrime] else []

/-- their names: first that of the mass, then that of t', or none. -/
def genNames (o : GenOptions) : List String := (o.names.map fun n => [n.1, n.2]).getD []

/-- the row of a generated event. -/
def genRow (o : GenOptions) (e : GenEvent) : Row := ⟨e.prod, e.decay, genVars o e ++ [e.weight]⟩

/-- all events have the particles of the first one. -/
def SameShape (prodNames decayNames : List String) (es : List GenEvent) : Prop :=
  ∀ e ∈ es, e.prod.length = prodNames.length ∧ e.decay.length = decayNames.length

end Rpwa.Deweight

import Verif.Model.EvtConvert
import Verif.Spec.EvtFile
import Verif.Props.Storage
/-! # Specification of the conversion of event files to text and back (C94) -/
namespace Rpwa.EvtConvert

open Rpwa.Storage

/-- the name of the particle with a GEANT number. -/
def NameOfId (id : ℤ) (n : String) : Prop :=
  (∃ q, (id, n, q) ∈ Evt.Spec.known) ∨ (n = "unknown" ∧ ∀ k ∈ Evt.Spec.known, k.1 ≠ id)

/-- a line with a particle of this name. -/
def HasName (T : Text) (l : Line) (n : String) : Prop := ∃ w rest id, l = w :: rest ∧ T.pInt w = some id ∧ NameOfId id n

/-- a line with this momentum. -/
def HasMomentum (T : Text) (l : Line) (p : Vec3) : Prop :=
  ∃ a b x y z rest, l = a :: b :: x :: y :: z :: rest ∧ T.pDbl x = some p.x ∧ T.pDbl y = some p.y ∧ T.pDbl z = some p.z

/-- the text of an event: number of particles, line of the beam, lines of the decay particles. -/
def IsBlock (T : Text) (beam : Line) (decay : List Line) (block : List Line) : Prop :=
  ∃ w, block = [w] :: beam :: decay ∧ T.pInt w = some (1 + decay.length) ∧ beam ≠ [] ∧ ∀ l ∈ decay, l ≠ []

/-- `sel` are lines of particles with the names `targets` in this order; for every name the first lines with this name, in order. -/
def Selected {α : Type} (targets : List String) (lines : List (String × α)) (sel : List α) : Prop :=
  sel.length = targets.length ∧ ∀ n, (targets.zip sel).filter (fun x => x.1 = n) = (lines.filter fun x => x.1 = n).take (targets.count n)

/-- the event of a block, when the file has the particles `beam` and `names`. -/
def RowOf (T : Text) (beam : String) (names : List String) (block : List Line) (row : Row) : Prop :=
  ∃ b ds ns p sel, IsBlock T b ds block ∧ HasName T b beam ∧ List.Forall₂ (HasName T) ds ns ∧ Selected names (ns.zip ds) sel ∧
    HasMomentum T b p ∧ List.Forall₂ (HasMomentum T) sel row.decay ∧ row.prod = [p] ∧ row.vals = []

/-- what may follow after the events: nothing, or an empty line and anything. -/
def IsTail (tail : List Line) : Prop := tail = [] ∨ ∃ more, tail = [] :: more

/-- the event file with this content. -/
def fileWith (md5 : Hashor → String) (a : ConvArgs) (bounds : Bounds) (beam : String) (names : List String) (rows : List Row) : EventMeta :=
  ⟨a.aux, md5 (rows.flatMap eventBytes), a.type, [beam], names, bounds, [], fun _ => none, some ⟨[], rows⟩⟩

/-- a number is read back from what was written. -/
def ReadBack (T : Text) (v : Vec3) : Prop := T.pDbl (T.fDbl v.x) = some v.x ∧ T.pDbl (T.fDbl v.y) = some v.y ∧ T.pDbl (T.fDbl v.z) = some v.z

end Rpwa.EvtConvert

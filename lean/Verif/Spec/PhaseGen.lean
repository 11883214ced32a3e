import Verif.Model.PhaseGen
import Verif.Props.Storage
/-! # Specification of phase-space Monte Carlo files (C97) -/
namespace Rpwa.PhaseGen

open Rpwa.Storage

/-- the attempts of the first `k` events. -/
def total (made : List Made) (k : ℕ) : ℕ := ((made.take k).map (·.attempts)).sum

/-- `k` events are stored: as many as there are, as were asked for, and as fit into the number of attempts. -/
structure IsCount (o : Opts) (made : List Made) (k : ℕ) : Prop where
  le : k ≤ made.length
  asked : (k : ℤ) ≤ max o.nEvents 0
  fits : o.limit ≠ 0 → 0 < k → (total made k : ℤ) ≤ o.limit
  most : k < made.length → (k : ℤ) < o.nEvents → o.limit ≠ 0 ∧ o.limit < (total made (k + 1) : ℤ)

/-- the row of an event. -/
def row (o : Opts) (m : Made) : Row := ⟨[m.beam], m.final, if o.noStore then [] else [m.mass, m.tPrime]⟩

/-- a file with these events: the type is generated, the particles are those of the generator; the hash is that of the content if the names can be read back. -/
structure FileOf (md5 : Hashor → String) (m : EventMeta) (o : Opts) (names : List String) (bounds : Bounds) (rows : List Row) : Prop where
  auxString : m.auxString = o.aux
  type : m.eventsType = .generated
  prod : m.prodNames = [o.beamName]
  decay : m.decayNames = o.finalNames
  limits : m.bounds = bounds
  addNames : m.addNames = names
  values : ∀ v, m.auxValues v = none
  tree : m.tree = some ⟨names, rows⟩
  hash : GoodNames names → m.contentHash = m.recalculateHash md5

/-- an attempt of the generator: an event, or nothing. -/
structure Try where
  beam : Vec3
  final : List Vec3
  mass : Dbl
  tPrime : Dbl

/-- the calls of `event()` for a sequence of attempts; `k` attempts have been made for the next event. -/
def group : ℕ → List (Option Try) → List Made
  | _, [] => []
  | k, none :: as => group (k + 1) as
  | k, some t :: as => ⟨k + 1, t.beam, t.final, t.mass, t.tPrime⟩ :: group 0 as

/-- the row of a successful attempt. -/
def tryRow (o : Opts) (t : Try) : Row := ⟨[t.beam], t.final, if o.noStore then [] else [t.mass, t.tPrime]⟩

/-- the report for `k` events from `a` attempts. -/
def report (k a : ℕ) : End := if a = 0 then .zeroDivision else .done k a ((k : ℚ) / a)

/-- how the script ends if `k` events are stored: interrupted if events are missing and there are no more; else with the report, whose attempts include those of
the event that did not fit. -/
def endOf (o : Opts) (made : List Made) (k : ℕ) : End :=
  if (k : ℤ) < o.nEvents then (if k = made.length then .interrupted else report k (total made (k + 1))) else report k (total made k)

/-- the attempts within the limit. -/
def limited (o : Opts) (as : List (Option Try)) : List (Option Try) := if o.limit = 0 then as else as.take o.limit.toNat

/-- the events have the particles of the generator. -/
def SameShape (o : Opts) (made : List Made) : Prop := ∀ m ∈ made, m.final.length = o.finalNames.length

end Rpwa.PhaseGen

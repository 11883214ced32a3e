import Verif.Model.AmpCalc
/-! # Specification of the calculation of amplitudes (C92) -/
namespace Rpwa.AmpCalc

open Rpwa.Storage Rpwa.EventMomenta

/-- column `σ i` of the momenta goes to final-state particle `i`: every column is used once, the names agree. -/
structure Assigned (names : List String) (parts : List (FsPart String)) (σ : ℕ → ℕ) : Prop where
  perm : ((List.range parts.length).map σ).Perm (List.range names.length)
  named : ∀ (i : ℕ) (p : FsPart String), parts[i]? = some p → names[σ i]? = some p.name

/-- `as` are the values of the amplitude for these events, in the same order; the momenta are assigned in the same way for all events. -/
def AmplitudesOf (a : Amplitude) (names : List String) (rows : List Row) (as : List (Dbl × Dbl)) : Prop :=
  ∃ σ, Assigned names a.topo.parts σ ∧ as.length = rows.length ∧ ∀ (i : ℕ) (row : Row), rows[i]? = some row →
    ∃ ms : List Vec3, ms.length = a.topo.parts.length ∧ (∀ j < a.topo.parts.length, ms[j]? = row.decay[σ j]?) ∧
      as[i]? = some (a.value row.prod ms)

/-- the amplitude can be calculated for these events: the particles are those of the final state, every event has as many momenta, the
production vertex accepts names and momenta. -/
structure Readable (a : Amplitude) (em : EventMeta) (rows : List Row) : Prop where
  prodNames : a.prodInit em.prodNames = true
  decayNames : em.decayNames.Perm (a.topo.parts.map FsPart.name)
  events : ∀ row ∈ rows, a.prodRead row.prod = true ∧ row.decay.length = em.decayNames.length

/-- the final-state indices that a key file gives to particles are those of a valid topology. -/
def Wave.Valid (x : Wave) : Prop := ∀ a, x.amplitude = some a → checkIndices a.topo.parts = true

/-- `m` is the complete and right content of the amplitude file of a task. -/
def Complete (w : World) (t : Task) (m : AmpMeta) : Prop :=
  ∃ em tree a as, w.events t.input = some em ∧ em.tree = some tree ∧ t.wave.amplitude = some a ∧ m.tree = some as ∧
    AmplitudesOf a em.decayNames tree.rows as ∧ m.eventMeta = [em] ∧ m.keyfileContent = t.wave.keyFile ∧
    m.objectBaseName = t.wave.name ∧ m.contentHash = m.recalculateHash w.md5

/-- everything that the calculation needs is there. -/
def Possible (w : World) (t : Task) : Prop :=
  w.rootpwa = true ∧ ∃ em tree a, w.events t.input = some em ∧ em.tree = some tree ∧ t.wave.amplitude = some a ∧
    tree.rows ≠ [] ∧ Readable a em tree.rows

/-- the task of an action that calculates amplitudes. -/
def Action.task? : Action → Option Task
  | .run t => some t
  | .crash t _ => some t
  | .delete _ => none

end Rpwa.AmpCalc

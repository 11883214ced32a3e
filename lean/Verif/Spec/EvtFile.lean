import Verif.Model.EvtFile
/-!
# What a text file of events says
-/
namespace Rpwa.Evt.Spec
open Rpwa.Particle Rpwa.Evt

/-- GEANT number, name with charge, charge. -/
def known : List (ℤ × String × ℤ) :=
  [(1, "gamma0", 0), (2, "e+", 1), (3, "e-", -1), (5, "mu+", 1), (6, "mu-", -1), (7, "pi0", 0), (8, "pi+", 1), (9, "pi-", -1), (10, "K_L0", 0), (11, "K+", 1), (12, "K-", -1),
   (13, "n0", 0), (14, "p+", 1), (15, "pbar-", -1), (16, "K_S0", 0), (17, "eta0", 0), (18, "Lambda0", 0), (25, "nbar0", 0), (26, "Lambdabar0", 0), (57, "rho(770)0", 0),
   (58, "rho(770)+", 1), (59, "rho(770)-", -1), (60, "omega(782)0", 0), (61, "eta'(982)0", 0), (62, "phi(1020)0", 0)]

/-- the line says: particle `name` with momentum `p` — number, charge, three components, energy, anything. -/
def Says (l : Line) (name : Name) (p : Mom) : Prop :=
  ∃ (k : ℤ × String × ℤ) (x y z e : Tok) (rest : Line), k ∈ known ∧ name = k.2.1.toList ∧ l = .int k.1 :: .int k.2.2 :: x :: y :: z :: e :: rest ∧
    x.toDbl = some p.1 ∧ y.toDbl = some p.2.1 ∧ z.toDbl = some p.2.2 ∧ e.toDbl ≠ none

/-- the lines of one event: number of particles, beam, at least one decay particle. -/
def EventLines (beam : Name) (decay : List Name) (e : Mom × List Mom) (ls : List Line) : Prop :=
  ∃ (rest : Line) (b : Line) (ds : List Line), ls = (.int (1 + decay.length) :: rest) :: b :: ds ∧ decay ≠ [] ∧ Says b beam e.1 ∧
    List.Forall₂ (fun l (x : Name × Mom) => Says l x.1 x.2) ds (decay.zip e.2) ∧ e.2.length = decay.length

/-- an event as entry of the tree. -/
def entry (e : Mom × List Mom) : Ev := ⟨e.1, e.2.map some⟩

/-- what may be left after the events: nothing, or a line with the number of particles of an event that is missing. -/
def Tail (t : List Line) : Prop := t = [] ∨ ∃ (n : ℤ) (rest : Line), 0 < n ∧ t = [.int n :: rest]

end Rpwa.Evt.Spec

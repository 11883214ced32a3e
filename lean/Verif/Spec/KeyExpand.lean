import Verif.Model.KeyExpand
/-!
# Specification of key files that describe several waves (C59)
-/
namespace Rpwa.KeyFile.Spec

open Rpwa.Particle

/-- the numbers of a list of numbers -/
def edges (l : List Setting) : List ℚ := l.filterMap fun s => match s with
  | .float x => some x
  | _ => none

/-- the bins of an `expand` group: neighbouring numbers of its list `bins`; none if its type is not `binning` -/
def binsOf (e : Members) : List Setting :=
  match e.lookup "type", e.lookup "bins" with
  | some (.str t), some (.list l) =>
    if t = "binning".toList then ((edges l).zip (edges l).tail).map fun b => .list [.float b.1, .float b.2] else []
  | _, _ => []

/-- the name under which the bin is entered -/
def nameOf (e : Members) : String :=
  match e.lookup "name" with
  | some (.str s) => String.ofList s
  | _ => ""

mutual
/-- the settings described by a setting: in every group with an `expand` group, this is replaced by one of its bins; all
combinations, in the order of the file (the bins of the first `expand` group vary slowest) -/
def choices : Setting → List Setting
  | .group g =>
    match g.lookup "expand" with
    | some (.group e) => (binsOf e).flatMap fun b => (choicesMembers true g).map fun g' => .group (g' ++ [(nameOf e, b)])
    | _ => (choicesMembers false g).map .group
  | .list l => (choicesElements l).map .list
  | .int z => [.int z]
  | .float x => [.float x]
  | .str s => [.str s]
  | .bool b => [.bool b]
/-- `skip`: leave out the `expand` group -/
def choicesMembers (skip : Bool) : Members → List Members
  | [] => [[]]
  | (n, s) :: r =>
    if skip && n == "expand" then choicesMembers skip r
    else (choices s).flatMap fun s' => (choicesMembers skip r).map fun r' => (n, s') :: r'
def choicesElements : List Setting → List (List Setting)
  | [] => [[]]
  | s :: r => (choices s).flatMap fun s' => (choicesElements r).map fun r' => s' :: r'
end

/-- a usable `expand` group in a group with the members `g`: a list of numbers and a valid name that is not taken, or another
type -/
def Usable (g e : Members) : Prop :=
  e.lookup "type" = some (.str "binning".toList) →
    (∃ s, e.lookup "name" = some (.str s) ∧ validName s = true ∧ (String.ofList s = "expand" ∨ g.lookup (String.ofList s) = none)) ∧
    (∃ x xs, e.lookup "bins" = some (.list ((x :: xs).map .float)))

mutual
/-- names in groups are unique (libconfig accepts no others), and all `expand` groups are usable -/
def Expandable : Setting → Prop
  | .group g => (g.map Prod.fst).Nodup ∧ (∀ e, g.lookup "expand" = some (.group e) → Usable g e) ∧ ExpandableMembers g
  | .list l => ExpandableElements l
  | .int _ => True
  | .float _ => True
  | .str _ => True
  | .bool _ => True
def ExpandableMembers : Members → Prop
  | [] => True
  | (n, s) :: r => Expandable s ∧ ExpandableMembers r
def ExpandableElements : List Setting → Prop
  | [] => True
  | s :: r => Expandable s ∧ ExpandableElements r
end

mutual
/-- the product of the numbers of bins of all `expand` groups -/
def combos : Setting → ℕ
  | .group g =>
    match g.lookup "expand" with
    | some (.group e) => (binsOf e).length * combosMembers true g
    | _ => combosMembers false g
  | .list l => combosElements l
  | .int _ => 1
  | .float _ => 1
  | .str _ => 1
  | .bool _ => 1
def combosMembers (skip : Bool) : Members → ℕ
  | [] => 1
  | (n, s) :: r => (if skip && n == "expand" then 1 else combos s) * combosMembers skip r
def combosElements : List Setting → ℕ
  | [] => 1
  | s :: r => combos s * combosElements r
end

end Rpwa.KeyFile.Spec

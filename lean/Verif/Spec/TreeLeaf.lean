import Verif.Model.TreeLeaf
/-! # Amplitudes in trees: what a program can do with them -/
namespace Rpwa.TreeLeaf

/-- the leaves that a program can have: made by any sequence of calls that did not fail. -/
inductive Reachable : Leaf → Prop where
  | new : Reachable Leaf.new
  | clear {a} : Reachable a → Reachable a.clear
  | define {a b} (ls : List String) : Reachable a → Leaf.define ls a = .ok b → Reachable b
  | set {a b} (z : ℂ) (i : ℕ) : Reachable a → Leaf.set z i a = .ok b → Reachable b
  | add {a b c} : Reachable a → Reachable b → Leaf.add b a = .ok c → Reachable c
  | sub {a b c} : Reachable a → Reachable b → Leaf.sub b a = .ok c → Reachable c
  | mul {a} (c : ℂ) : Reachable a → Reachable (Leaf.mul c a)
  | div {a} (c : ℂ) : Reachable a → Reachable (Leaf.div c a)
  | stored {a} : Reachable a → Reachable a.stored

/-- labels and amplitudes belong together. -/
structure Good (a : Leaf) : Prop where
  unique : a.labels.Nodup
  size : a.labels ≠ [] → a.amps.length = a.labels.length
  unlabelled : a.labels = [] → a.amps.length ≤ 1
  lookup : ∀ l i, a.map l = some i ↔ a.labels[i]? = some l

end Rpwa.TreeLeaf

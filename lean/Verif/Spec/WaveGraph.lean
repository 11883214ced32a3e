import Verif.Model.WaveGraph
import Verif.Spec.DecayGraph
/-!
# What the waves made from a template topology are (C74) -/
namespace Rpwa.Dec
variable {M : Type} [Inhabited M]

/-- the same tree with the same final-state particles, other vertices and isobars. -/
inductive Like : Tree → Tree → Prop
  | leaf (p : ℕ) : Like (.leaf p) (.leaf p)
  | node (v p v' p' : ℕ) (l r l' r' : Tree) : Like l l' → Like r r' → Like (.node v p l r) (.node v' p' l' r')

/-- as `Like`; and the isobar `p'` in the place of the isobar `p` from vertex `v` has properties allowed by `C v p`. -/
inductive Filled (C : ℕ → ℕ → Part M → Prop) (h : Heap M) : Tree → Tree → Prop
  | leaf (p : ℕ) : Filled C h (.leaf p) (.leaf p)
  | node (v p v' p' : ℕ) (l r l' r' : Tree) : C v p (h.part p') → Filled C h l l' → Filled C h r r' → Filled C h (.node v p l r) (.node v' p' l' r')

/-- two topologies with these decay vertices have no vertex and no isobar in common. -/
def Apart (h : Heap M) (a b : List ℕ) : Prop := ∀ v ∈ a, ∀ u ∈ b, v ≠ u ∧ ∀ p ∈ (h.vtx v).ins, p ∉ (h.vtx u).ins

/-- new objects were made, the old ones are as they were. -/
structure Ext (h k : Heap M) : Prop where
  hv : h.verts.length ≤ k.verts.length
  hp : h.parts.length ≤ k.parts.length
  hvtx : ∀ v, v < h.verts.length → k.vtx v = h.vtx v
  hpart : ∀ p, p < h.parts.length → k.part p = h.part p

/-- the vertices and isobars were made after the heap `h`. -/
structure Own (h : Heap M) (S : Tree) : Prop where
  hv : ∀ v ∈ S.verts, h.verts.length ≤ v
  hp : ∀ p ∈ S.parts, p ∉ S.leaves → h.parts.length ≤ p

/-- how many topologies come from one isobar. -/
def Choice.size (c : Choice M) : ℕ := (if c.self then 1 else 0) + c.clones

/-- the number of topologies for a tree, if at vertex `v` there are `k v` for each pair of daughter decays. -/
def Tree.count (k : ℕ → ℕ) : Tree → ℕ
  | .leaf _ => 1
  | .node v _ l r => l.count k * r.count k * k v

/-- an isobar that was chosen for the vertex `v` of the template `t`, in the place of the isobar `p`. -/
def Chosen (choose : Choose M) (H : Heap M) (t : Topo) (v p : ℕ) (x : Part M) : Prop :=
  ∃ n, t.node v = .ok n ∧ ∃ k a b, ∃ c ∈ choose k n a b, x = c.change (H.part p)

/-- the topology `w` is a wave for the template `t` with the tree `T` and the production vertex `prod` (in the heap `H`): it is a valid topology with the same tree and
the same final-state particles; vertices and isobars are its own, the isobars are chosen ones; its production vertex is a copy of that of the template that makes the X of the wave. -/
structure IsWave (choose : Choose M) (H : Heap M) (t : Topo) (prod : ℕ) (T : Tree) (h : Heap M) (w : Topo) (S : Tree) : Prop where
  like : Like T S
  filled : Filled (Chosen choose H t) h T S
  decay : IsDecay h.vtx S
  parts : S.parts.Nodup
  own : Own H S
  decays : w.decays = S.verts
  fs : w.fsParts = T.leaves
  prod : ∃ v, w.prod = some v ∧ H.verts.length ≤ v ∧ h.vtx v = { H.vtx prod with outs := S.top :: (H.vtx prod).outs.tail }
  valid : isobarCheck h w = .ok true

end Rpwa.Dec

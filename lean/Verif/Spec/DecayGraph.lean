import Verif.Model.DecayGraph
import Mathlib.Data.List.Perm.Basic
/-!
# Decay trees

What a topology of isobar decays is, without graphs: a tree of two-body decays. -/
namespace Rpwa.Dec

/-- a particle that is final, or that decays in a vertex into two trees. Vertices and particles are pointers. -/
inductive Tree
  | leaf (p : ℕ)
  | node (v p : ℕ) (l r : Tree)

namespace Tree
/-- the particle that decays. -/
def top : Tree → ℕ
  | leaf p => p
  | node _ p _ _ => p

/-- all particles, each before those it decays into. -/
def parts : Tree → List ℕ
  | leaf p => [p]
  | node _ p l r => p :: (l.parts ++ r.parts)

/-- all vertices, each before those of its daughters: depth-first order. -/
def verts : Tree → List ℕ
  | leaf _ => []
  | node v _ l r => v :: (l.verts ++ r.verts)

/-- final-state particles in depth-first order. -/
def leaves : Tree → List ℕ
  | leaf p => [p]
  | node _ _ l r => l.leaves ++ r.leaves

/-- all sub-decays, the tree itself included. -/
def subs : Tree → List Tree
  | leaf p => [leaf p]
  | node v p l r => node v p l r :: (l.subs ++ r.subs)

/-- sum over the final-state particles. -/
def sum {M : Type} [Add M] (f : ℕ → M) : Tree → M
  | leaf p => f p
  | node _ _ l r => l.sum f + r.sum f

/-- renaming of vertices and particles. -/
def rename (σ τ : ℕ → ℕ) : Tree → Tree
  | leaf p => leaf (τ p)
  | node v p l r => node (σ v) (τ p) (l.rename σ τ) (r.rename σ τ)
end Tree

/-- the vertex objects say what the tree says: the vertex of a decay has the decaying particle as incoming and the two daughters (in any order) as outgoing particles. -/
inductive IsDecay (vtx : ℕ → Vtx) : Tree → Prop
  | leaf (p : ℕ) : IsDecay vtx (.leaf p)
  | node (v p : ℕ) (l r : Tree) (outs : List ℕ) : vtx v = ⟨.decay, [p], outs⟩ → outs = [l.top, r.top] ∨ outs = [r.top, l.top] → IsDecay vtx l → IsDecay vtx r →
      IsDecay vtx (.node v p l r)

/-- what the constructor is given: pointers to a production vertex and to two-body decay vertices; what goes into the production vertex are
different particles, none of which comes out of it. -/
structure Input {M : Type} (h : Heap M) (prod : ℕ) (decays : List ℕ) : Prop where
  hprod : prod < h.verts.length
  hdecays : ∀ v ∈ decays, v < h.verts.length
  hkprod : (h.vtx prod).kind = .prod
  hkind : ∀ v ∈ decays, ∃ p a b, h.vtx v = ⟨.decay, [p], [a, b]⟩
  hbeam : ∀ p ∈ (h.vtx prod).ins, p ∉ (h.vtx prod).outs
  hins : (h.vtx prod).ins.Nodup
  hout : (h.vtx prod).outs ≠ []

/-- no particle object comes out of two vertices (or twice out of one). -/
def NoSharing {M : Type} (h : Heap M) (prod : ℕ) (decays : List ℕ) : Prop := ((prod :: decays).flatMap fun v => (h.vtx v).outs).Nodup

/-- **the arguments describe a decay tree**: X, the first particle from the production vertex, decays as in the tree; the other particles of
the production vertex do not take part; all vertices and all final-state particles are used, each once. -/
structure IsTree {M : Type} (h : Heap M) (prod : ℕ) (decays fs : List ℕ) (T : Tree) : Prop where
  hdecay : IsDecay h.vtx T
  hX : (h.vtx prod).outs.head? = some T.top
  hrest : ∀ p ∈ (h.vtx prod).ins ++ (h.vtx prod).outs.tail, p ∉ T.parts
  hparts : T.parts.Nodup
  hverts : T.verts.Perm decays
  hleaves : T.leaves.Perm fs

/-- the indices of the final-state particles: all are negative (default), or the particles of each name are numbered from 0 on without gaps. -/
def GoodIndices {M : Type} [Inhabited M] (h : Heap M) (fs : List ℕ) : Prop :=
  (∀ p ∈ fs, (h.part p).index < 0) ∨
  ∀ p ∈ fs, ((fs.filter fun q => (h.part q).name = (h.part p).name).map fun q => (h.part q).index).Perm
    ((List.range (fs.filter fun q => (h.part q).name = (h.part p).name).length).map fun j : ℕ => (j : ℤ))

end Rpwa.Dec

import Verif.Model.DecayGraph
import Mathlib.Data.List.ProdSigma
/-!
# The decay topologies made by the wave-set generator

Models the part of `waveSetGenerator::generateWaveSet` (decayAmplitude/waveSetGenerator.cc:138-451) that builds topologies. Which quantum numbers, isobars and mass
dependences are tried for a pair of daughter decays is the subject of `Model/WaveSet`; here it is an arbitrary function of the objects at that time (`Choose`).
Simplifications:
* an isobar is given its properties by an arbitrary function (`setProperties`, `setCharge`, `setSpinProj`, `setReflectivity`); L, S and mass dependence of a vertex are not modelled;
* for one isobar the topologies with a mass dependence of their own come after the one with the default (setMassDepsForDecayTopology, l.587-640, takes the order of the decay modes);
* the correction of charges and flavours (l.447-449) and the removal of Bose duplicates (l.452-461) do not touch the graphs and are not modelled here. -/
namespace Rpwa.Dec
variable {M : Type}

/-- one isobar: its properties, and for how many mass dependences the topology is cloned (`clones`), or used itself (`self`). -/
structure Choice (M : Type) where
  change : Part M → Part M
  self : Bool
  clones : ℕ

/-- what is tried at a node of the template for a pair of daughter decays. -/
abbrev Choose (M : Type) := Heap M → ℕ → Topo → Topo → List (Choice M)

/-- `createNewDecayTopology` (waveSetGenerator.cc:562-584). -/
def newDecay [Inhabited M] (h : Heap M) (t : Topo) (v : ℕ) (f : Part M → Part M) : Outcome (Heap M × Topo) :=
  (clone h t false false).bind fun r => (t.node v).bind fun n =>
    .ok ({ r.1 with parts := r.1.parts.modify ((r.1.vtx (r.2.vertex n)).ins.headD 0) f }, r.2)

/-- the clones with a mass dependence of their own (waveSetGenerator.cc:601-622). -/
def massDeps [Inhabited M] (h : Heap M) (t : Topo) : ℕ → Outcome (Heap M × List Topo)
  | 0 => .ok (h, [])
  | k + 1 => (massDeps h t k).bind fun r => (clone r.1 t false false).bind fun c => .ok (c.1, r.2 ++ [c.2])

/-- the topologies for one isobar (waveSetGenerator.cc:380-386, 414-428). -/
def applyChoice [Inhabited M] (t : Topo) (v : ℕ) (r : Heap M × List Topo) (c : Choice M) : Outcome (Heap M × List Topo) :=
  (newDecay r.1 t v c.change).bind fun d => (massDeps d.1 d.2 c.clones).bind fun e => .ok (e.1, r.2 ++ (if c.self then [d.2] else []) ++ e.2)

/-- `vertex(topNode())->inParticles()[0]` (waveSetGenerator.cc:188-194). -/
def topPart (h : Heap M) (t : Topo) : Outcome ℕ := t.topNode.bind fun n => .ok ((h.vtx (t.vertex n)).ins.headD 0)

/-- a pair of daughter decays (waveSetGenerator.cc:183-216): a copy of the vertex of the template gets the daughters, the decays are joined. -/
def combine [Inhabited M] (choose : Choose M) (g : Graph) (n : ℕ) (r : Heap M × List Topo) (x : Topo × Topo) : Outcome (Heap M × List Topo) :=
  (topPart r.1 x.1).bind fun a => (topPart r.1 x.2).bind fun b =>
    let w := r.1.vtx (g.vertex n)
    let h' : Heap M := { r.1 with verts := r.1.verts ++ [{ w with outs := (w.outs.set 0 a).set 1 b }] }
    (joinDaughters h' r.1.verts.length [x.1.toGraph, x.2.toGraph]).bind fun t =>
      (choose h' n x.1 x.2).foldlM (applyChoice t r.1.verts.length) (h', r.2)

/-- one node of the template (waveSetGenerator.cc:163-435): `s.2` are the `decayPossibilities`. -/
def atNode [Inhabited M] (choose : Choose M) (g : Graph) (s : Heap M × (ℕ → List Topo)) (x : ℕ × Topo) : Outcome (Heap M × (ℕ → List Topo)) :=
  if isFsVertex s.1 g (g.vertex x.1) then .ok (s.1, Function.update s.2 x.1 (s.2 x.1 ++ [x.2]))
  else match g.succ x.1 with
    | a :: b :: _ => (((s.2 a).product (s.2 b)).foldlM (combine choose g x.1) (s.1, s.2 x.1)).bind fun r => .ok (r.1, Function.update s.2 x.1 r.2)
    | _ => .ub

/-- a wave gets a copy of the production vertex of the template (waveSetGenerator.cc:437-446, interactionVertex.cc:74-88). -/
def withProduction (prod : ℕ) (r : Heap M × List Topo) (w : Topo) : Outcome (Heap M × List Topo) := match w.decays with
  | [] => .ub
  | d :: _ =>
    let h' : Heap M := { r.1 with verts := r.1.verts ++ [{ r.1.vtx prod with outs := (r.1.vtx prod).outs.set 0 ((r.1.vtx d).ins.headD 0) }] }
    (setProductionVertex h' w r.1.verts.length).bind fun w' => .ok (h', r.2 ++ [w'])

/-- `generateWaveSet` (waveSetGenerator.cc:138-451), from the template topology. -/
def genWaves [Inhabited M] (choose : Choose M) (h : Heap M) (t : Topo) : Outcome (Heap M × List Topo) :=
  (isobarCheck h t).bind fun ok => if ok = false then .ok (h, []) else match t.prod, t.decays with
    | some prod, x :: _ => (t.node x).bind fun n0 => ((t.dfs n0).mapM (subDecay h t.toGraph)).bind fun subs =>
      (((t.dfs n0).zip subs).reverse.foldlM (atNode choose t.toGraph) (h, fun _ => [])).bind fun s =>
        (s.2 n0).foldlM (withProduction prod) (s.1, [])
    | _, _ => .ub

end Rpwa.Dec

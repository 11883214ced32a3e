import Verif.Model.Basic
import Mathlib.Logic.Function.Basic
import Mathlib.Data.List.Basic
import Mathlib.Data.Int.Notation
/-!
# Decay topologies as graphs of vertex and particle objects

Models `decayAmplitude/decayGraph.hpp`, `decayTopology.{h,cc}` (everything but the kinematics data, which is `Model/EventMomenta`) and the graph part of
`isobarDecayTopology.cc`.  Vertices and particles live in a heap and are shared by pointers, as in the code (`boost::shared_ptr`); a topology stores pointers.
Simplifications:
* null pointers are not modelled (every function ends the program when it meets one);
* a boost graph is the list of its nodes and the list of its edges in the order in which they were added (`vecS`); `out_edges` of a node are its edges in that order;
* an edge descriptor is the pair of nodes: that is all that is used of the descriptors stored in the map (decayGraph.hpp:459-482);
* names of graphs, graphviz attributes, printing and subgraphs linked to the mother graph are not modelled. -/
namespace Rpwa.Dec

/-- dynamic type of a vertex: `productionVertex`, `fsVertex`, or any other `interactionVertex` (for isobar topologies an `isobarDecayVertex`). -/
inductive Kind | prod | decay | fs
  deriving DecidableEq

/-- `interactionVertex` (interactionVertex.h): pointers to the incoming and outgoing particles. -/
structure Vtx where
  kind : Kind
  ins : List ℕ
  outs : List ℕ
  deriving DecidableEq

/-- `particle`: name, index among the particles with the same name, Lorentz-vector (any type with an addition). -/
structure Part (M : Type) where
  name : String
  index : ℤ
  mom : M
  deriving DecidableEq

/-- all vertex and particle objects of the program; a pointer is a position in these lists, a new object is put at the end. -/
structure Heap (M : Type) where
  verts : List Vtx
  parts : List (Part M)

variable {M : Type}

def Heap.vtx (h : Heap M) (v : ℕ) : Vtx := h.verts.getD v ⟨.decay, [], []⟩

/-- an edge of the graph with its particle. -/
structure Edge where
  src : ℕ
  dst : ℕ
  part : ℕ
  deriving DecidableEq

/-- `decayGraph`: nodes with their vertices, edges with their particles, and the two maps back (decayGraph.hpp:912-915). -/
structure Graph where
  nodes : List ℕ
  edges : List Edge
  vmap : ℕ → Option ℕ
  pmap : ℕ → Option (ℕ × ℕ)

def Graph.empty : Graph := ⟨[], [], fun _ => none, fun _ => none⟩

/-- `vertex(nd)` (decayGraph.hpp:436). -/
def Graph.vertex (g : Graph) (i : ℕ) : ℕ := g.nodes.getD i 0

/-- edges for the particles coming into the new vertex (decayGraph.hpp:350-379), node `n`. -/
def inEdges (h : Heap M) (g : Graph) (v n : ℕ) : List Edge :=
  (h.vtx v).ins.flatMap fun p => (List.range n).flatMap fun i => ((h.vtx (g.vertex i)).outs.filter (· = p)).map fun _ => ⟨i, n, p⟩

/-- edges for the particles coming out of the new vertex (decayGraph.hpp:381-411). -/
def outEdges (h : Heap M) (g : Graph) (v n : ℕ) : List Edge :=
  (h.vtx v).outs.flatMap fun p => (List.range n).flatMap fun i => ((h.vtx (g.vertex i)).ins.filter (· = p)).map fun _ => ⟨n, i, p⟩

/-- `boost::add_edge`, set the particle, enter it in the map, for several edges. -/
def Graph.addEdges (g : Graph) (es : List Edge) : Graph :=
  { g with edges := g.edges ++ es, pmap := es.foldl (fun m e => Function.update m e.part (some (e.src, e.dst))) g.pmap }

/-- `decayGraph::addVertex` (decayGraph.hpp:334-413). -/
def addVertex (h : Heap M) (g : Graph) (v : ℕ) : Graph :=
  let n := g.nodes.length
  (({ g with nodes := g.nodes ++ [v], vmap := Function.update g.vmap v (some n) } : Graph).addEdges (inEdges h g v n)).addEdges (outEdges h g v n)

/-- targets of the edges coming out of a node (`boost::out_edges`). -/
def Graph.succ (g : Graph) (u : ℕ) : List ℕ := (g.edges.filter fun e => e.src = u).map Edge.dst

def Graph.outDeg (g : Graph) (u : ℕ) : ℕ := (g.edges.filter fun e => e.src = u).length
def Graph.inDeg (g : Graph) (u : ℕ) : ℕ := (g.edges.filter fun e => e.dst = u).length

/-- `boost::depth_first_visit` with the recorder of discovered nodes (decayGraph.hpp:664-684, 889-909): `todo` are the targets still to be looked at, first those
of the node discovered last (the stack of boost's implementation, flattened), `seen` the nodes discovered so far. -/
def dfsGo (succ : ℕ → List ℕ) : ℕ → List ℕ → List ℕ → List ℕ
  | 0, _, seen => seen
  | _ + 1, [], seen => seen
  | k + 1, u :: todo, seen => if u ∈ seen then dfsGo succ k todo seen else dfsGo succ k (succ u ++ todo) (seen ++ [u])

/-- `sortNodesDfs` (decayGraph.hpp:664-684). The number of steps is no restriction (`Props/DecayGraphDfs`). -/
def Graph.dfs (g : Graph) (start : ℕ) : List ℕ := dfsGo g.succ (g.edges.length + 1) [start] []

/-- `node(v)` (decayGraph.hpp:446-461). -/
def Graph.node (g : Graph) (v : ℕ) : Outcome ℕ := match g.vmap v with | some i => .ok i | none => .terminate

/-- `isEdge` (decayGraph.hpp:443). -/
def Graph.isEdge (g : Graph) (p : ℕ) : Bool := (g.pmap p).isSome

/-- `edge(p)` (decayGraph.hpp:464-486): position of the first edge between the two nodes of the stored descriptor (`boost::edge`); the default descriptor, which is
returned if there is none, must not be used. -/
def Graph.edge (g : Graph) (p : ℕ) : Outcome ℕ := match g.pmap p with
  | none => .terminate
  | some (a, b) => match g.edges.findIdx? (fun e => e.src = a ∧ e.dst = b) with
    | some k => .ok k
    | none => .ub

/-- `decayTopology`: the graph, and the pointers to production vertex, decay vertices, final-state particles (decayTopology.h:176-178). -/
structure Topo extends Graph where
  prod : Option ℕ
  decays : List ℕ
  fsParts : List ℕ

/-- `isParticle` (decayTopology.cc:256-269). -/
def Graph.isParticle (g : Graph) (p : ℕ) : Bool := g.edges.any fun e => e.part = p

/-- `isFsVertex` (decayTopology.cc:321-331). -/
def isFsVertex (h : Heap M) (g : Graph) (v : ℕ) : Bool := (h.vtx v).kind = .fs ∧ v ∈ g.nodes

/-- `isProductionVertex` (decayTopology.cc:272-279). -/
def Topo.isProd (t : Topo) (v : ℕ) : Bool := v ∈ t.nodes ∧ t.prod = some v

/-- `isDecayVertex` (decayTopology.cc:282-295). -/
def isDecayVertex (h : Heap M) (t : Topo) (v : ℕ) : Bool := v ∈ t.nodes ∧ ¬ (t.isProd v = true ∨ isFsVertex h t.toGraph v = true)

/-- `isFsParticle` (decayTopology.cc:334-345). -/
def Topo.isFsParticle (t : Topo) (p : ℕ) : Bool := t.isParticle p && decide (p ∈ t.fsParts)

/-! ### `checkTopology` (decayTopology.cc:364-591) -/

/-- no dangling particles (l.367-407). -/
def danglingOk (h : Heap M) (t : Topo) : Bool := t.nodes.all fun v =>
  if t.isProd v then t.isEdge ((h.vtx v).outs.headD 0)
  else ((h.vtx v).ins.all fun p => t.isEdge p) && ((h.vtx v).outs.all fun p => t.isEdge p)

/-- the production vertex (l.408-431). -/
def prodOk (t : Topo) : Outcome Bool := match t.prod with
  | none => .ok false
  | some v => (t.node v).bind fun n => .ok (decide (t.vertex n = v) && (decide (t.outDeg n = 1) && decide (t.inDeg n = 0)))

/-- `topNode` (decayGraph.hpp:693-709); the default node, which is returned if there is none, must not be used. -/
def Graph.topNode (g : Graph) : Outcome ℕ :=
  match (List.range g.nodes.length).find? fun i => g.inDeg i = 0 ∧ (g.dfs i).length = g.nodes.length with
  | some i => .ok i
  | none => .ub

/-- all nodes are reachable (l.432-454). -/
def reachOk (t : Topo) : Outcome Bool := match t.prod with
  | some v => (t.node v).bind fun n => .ok (decide ((t.dfs n).length = t.decays.length + t.fsParts.length + 1))
  | none => t.topNode.bind fun n => .ok (decide ((t.dfs n).length = t.decays.length + t.fsParts.length))

/-- a decay vertex has a node and edges (l.455-482). -/
def decayOk (t : Topo) (v : ℕ) : Outcome Bool :=
  (t.node v).bind fun n => .ok (decide (t.vertex n = v) && (decide (1 ≤ t.outDeg n) && decide (1 ≤ t.inDeg n)))

/-- a final-state particle has an edge that leads to a final-state vertex (l.483-508). -/
def fsOk (h : Heap M) (t : Topo) (p : ℕ) : Outcome Bool :=
  if t.isEdge p then (t.edge p).bind fun k => match t.edges[k]? with
    | none => .ub
    | some e => .ok (decide (e.part = p) && isFsVertex h t.toGraph (t.vertex e.dst))
  else .ok false

/-- edges connect the right vertices (l.509-559). -/
def edgesOk (h : Heap M) (t : Topo) : Bool := t.edges.all fun e =>
  decide (e.part ∈ (h.vtx (t.vertex e.src)).outs) && decide (e.part ∈ (h.vtx (t.vertex e.dst)).ins)

def Heap.part (h : Heap M) [Inhabited M] (p : ℕ) : Part M := h.parts.getD p ⟨"", -1, default⟩

/-- indices of the final-state particles: all at the default value, or for each name 0, 1, 2, … after sorting (l.560-586). -/
def indicesOk [Inhabited M] (h : Heap M) (t : Topo) : Bool :=
  (t.fsParts.all fun p => decide ((h.part p).index < 0)) ||
  (t.fsParts.all fun p =>
    let is := ((t.fsParts.filter fun q => (h.part q).name = (h.part p).name).map fun q => (h.part q).index).mergeSort (fun a b => decide (a ≤ b))
    decide (is = (List.range is.length).map fun j : ℕ => (j : ℤ)))

/-- `and` of a list of outcomes, all of which are evaluated. -/
def allO : List (Outcome Bool) → Outcome Bool
  | [] => .ok true
  | x :: xs => x.bind fun a => (allO xs).bind fun b => .ok (a && b)

/-- `decayTopology::checkTopology` (decayTopology.cc:364-591). -/
def checkTopology [Inhabited M] (h : Heap M) (t : Topo) : Outcome Bool :=
  allO ([.ok (danglingOk h t), prodOk t, reachOk t] ++ t.decays.map (decayOk t) ++ t.fsParts.map (fsOk h t) ++ [.ok (edgesOk h t), .ok (indicesOk h t)])

/-- the decay vertex has one incoming and two outgoing edges (isobarDecayTopology.cc:201-224). -/
def isobarOk (t : Topo) (v : ℕ) : Outcome Bool := (t.node v).bind fun n => .ok (decide (t.inDeg n = 1) && decide (t.outDeg n = 2))

/-- `isobarDecayTopology::checkTopology` (isobarDecayTopology.cc:195-232). -/
def isobarCheck [Inhabited M] (h : Heap M) (t : Topo) : Outcome Bool := allO (checkTopology h t :: t.decays.map (isobarOk t))

/-! ### construction -/

/-- the part of `constructDecay` that sorts what was found (decayTopology.cc:1000-1021). -/
def sortDecay (h : Heap M) (g : Graph) (prod : ℕ) (decays fs : List ℕ) (sorted : List ℕ) : Topo :=
  { g with
    prod := some prod
    decays := (sorted.map g.vertex).filter fun v => decide ((h.vtx v).kind ≠ .fs ∧ v ≠ prod ∧ v ∈ decays)
    fsParts := (((sorted.map g.vertex).filter fun v => decide ((h.vtx v).kind = .fs)).map fun v => (h.vtx v).ins.headD 0).filter fun p => decide (p ∈ fs) }

/-- the heap after the final-state vertices were created (decayTopology.cc:990-998). -/
def withFs (h : Heap M) (fs : List ℕ) : Heap M := { h with verts := h.verts ++ fs.map fun p => ⟨.fs, [p], []⟩ }

/-- `decayTopology::constructDecay` (decayTopology.cc:947-1027). All final-state vertices are created first here; in the code one by one, which makes no difference. -/
def constructDecay [Inhabited M] (h : Heap M) (prod : ℕ) (decays fs : List ℕ) (check : Bool) : Outcome (Heap M × Topo) :=
  if fs.length < 1 then .terminate
  else if decays.length < 1 then .terminate
  else
    let h' := withFs h fs
    let g := (prod :: decays ++ List.range' h.verts.length fs.length).foldl (addVertex h') Graph.empty
    (g.node prod).bind fun n =>
      let t := sortDecay h' g prod decays fs (g.dfs n)
      if check then (checkTopology h' t).bind fun ok => if ok then .ok (h', t) else .terminate
      else .ok (h', t)

/-- `isobarDecayTopology::constructDecay` (isobarDecayTopology.cc:148-172); the vertices are `isobarDecayVertex` objects (l.184-190). -/
def constructIsobarDecay [Inhabited M] (h : Heap M) (prod : ℕ) (decays fs : List ℕ) (check : Bool) : Outcome (Heap M × Topo) :=
  (constructDecay h prod decays fs check).bind fun r => if check ∧ r.2.decays.length ≠ decays.length then .terminate else .ok r

/-- `calcIsobarLzVec` (isobarDecayTopology.cc:263-276, isobarDecayVertex.cc:165-174): from the last vertex to the first, the parent gets the sum of the daughters. -/
def calcStep [Inhabited M] [Add M] (h : Heap M) (v : ℕ) : Heap M :=
  match (h.vtx v).ins, (h.vtx v).outs with
  | p :: _, a :: b :: _ => { h with parts := h.parts.modify p fun x => { x with mom := (h.part a).mom + (h.part b).mom } }
  | _, _ => h

def calcIsobarLzVec [Inhabited M] [Add M] (h : Heap M) (t : Topo) : Heap M := t.decays.reverse.foldl calcStep h

/-! ### building the internal data, sub-decays, joining -/

/-- the search for the production vertex (decayTopology.cc:1040-1048): pointer and number of candidates. -/
def findProd (h : Heap M) (g : Graph) : Option ℕ × ℕ := g.nodes.zipIdx.foldl (fun r x =>
  if g.inDeg x.2 = 0 ∧ g.outDeg x.2 = 1 then (if (h.vtx x.1).kind = .prod then (some x.1, r.2 + 1) else (none, r.2)) else r) (none, 0)

/-- the order of the nodes (decayTopology.cc:1051-1075). -/
def sortedNodes (h : Heap M) (g : Graph) (prod : Option ℕ) : Outcome (List ℕ) := match prod with
  | some v => (g.node v).bind fun n => .ok (g.dfs n)
  | none => match (List.range g.nodes.length).filter fun i => g.inDeg i = 0 ∧ isFsVertex h g (g.vertex i) = false with
    | [i] => .ok (g.dfs i)
    | _ => .ok (List.range g.nodes.length)

/-- `buildInternalData` (decayTopology.cc:1030-1103). -/
def buildInternalData (h : Heap M) (g : Graph) : Outcome Topo :=
  let pr := findProd h g
  (sortedNodes h g pr.1).bind fun sorted =>
    let fs := ((sorted.map g.vertex).filter fun v => isFsVertex h g v).map fun v => (h.vtx v).ins.headD 0
    if 1 < pr.2 ∨ fs.length < 1 then .terminate
    else
      let t : Topo := { g with prod := pr.1, decays := [], fsParts := fs }
      .ok { t with decays := (sorted.map g.vertex).filter fun v => isDecayVertex h t v }

/-- `subDecay` without link to the mother (decayTopology.cc:594-602, decayGraph.hpp:712-772). -/
def subDecay (h : Heap M) (g : Graph) (start : ℕ) : Outcome Topo :=
  buildInternalData h (((g.dfs start).map g.vertex).foldl (addVertex h) Graph.empty)

/-- `buildReverseMaps` (decayGraph.hpp:199-225). -/
def Graph.reverseMaps (g : Graph) : Graph :=
  { g with
    vmap := g.nodes.zipIdx.foldl (fun m x => Function.update m x.1 (some x.2)) fun _ => none
    pmap := g.edges.foldl (fun m e => Function.update m e.part (some (e.src, e.dst))) fun _ => none }

/-- the innermost step of `createEdgesFromParticles` (decayGraph.hpp:846-866). -/
def tryEdge (i j : ℕ) (g : Graph) (x : ℕ × ℕ) : Graph := if x.1 = x.2 ∧ g.isEdge x.1 = false then g.addEdges [⟨i, j, x.1⟩] else g

/-- `createEdgesFromParticles` for a pair of nodes (decayGraph.hpp:838-867). -/
def connectPair (h : Heap M) (g : Graph) (x : ℕ × ℕ) : Graph :=
  if g.edges.any fun e => e.src = x.1 ∧ e.dst = x.2 then g
  else ((h.vtx (g.vertex x.1)).outs.product (h.vtx (g.vertex x.2)).ins).foldl (tryEdge x.1 x.2) g

/-- `createEdgesFromParticles` (decayGraph.hpp:831-871). -/
def createEdges (h : Heap M) (g : Graph) : Graph :=
  ((List.range g.nodes.length).product (List.range g.nodes.length)).foldl (connectPair h) g

/-- `addGraph` (decayGraph.hpp:790-799): `boost::copy_graph` adds copies of nodes and edges. -/
def addGraph (h : Heap M) (g g' : Graph) : Graph :=
  createEdges h ({ g with
    nodes := g.nodes ++ g'.nodes
    edges := g.edges ++ g'.edges.map fun e => ⟨e.src + g.nodes.length, e.dst + g.nodes.length, e.part⟩ } : Graph).reverseMaps

/-- `addDecay` (decayTopology.cc:605-610). -/
def addDecay (h : Heap M) (g g' : Graph) : Outcome Topo := buildInternalData h (addGraph h g g')

/-- `joinDaughterDecays` (isobarDecayTopology.cc:451-464). -/
def joinDaughters (h : Heap M) (v : ℕ) : List Graph → Outcome Topo
  | ds => ds.foldlM (fun t d => addDecay h t.toGraph d) { addVertex h Graph.empty v with prod := none, decays := [], fsParts := [] }

/-- `setProductionVertex` (decayTopology.cc:613-634). -/
def setProductionVertex (h : Heap M) (t : Topo) (v : ℕ) : Outcome Topo := match t.prod with
  | none => .ok { addVertex h t.toGraph v with prod := some v, decays := t.decays, fsParts := t.fsParts }
  | some u => (t.node u).bind fun n => .ok { t with nodes := t.nodes.set n v, prod := some v }

/-- `subDecayConsistent` (isobarDecayTopology.cc:434-440): the sub-decay from a decay vertex on, with a new `nonInteractionVertex` (nonInteractionVertex.cc:17-29: only one
outgoing particle, the parent of the decay) as production vertex. -/
def subDecayConsistent (h : Heap M) (t : Topo) (v : ℕ) : Outcome (Heap M × Topo) :=
  (t.node v).bind fun n => (subDecay h t.toGraph n).bind fun s =>
    let h' : Heap M := { h with verts := h.verts ++ [⟨.prod, [], [(h.vtx v).ins.headD 0]⟩] }
    (setProductionVertex h' s h.verts.length).bind fun s' => .ok (h', s')

/-! ### cloning -/

/-- `decayTopology::cloneNode` (decayTopology.cc:1106-1127, decayGraph.hpp:228-250) without cloning of particles: a copy of the vertex takes its place. -/
def cloneNode (ht : Heap M × Topo) (n : ℕ) : Heap M × Topo × ℕ :=
  let (h, t) := ht
  let v := t.vertex n
  let w := h.verts.length
  let h' : Heap M := { h with verts := h.verts ++ [h.vtx v] }
  let g : Graph := { t.toGraph with nodes := t.nodes.set n w, vmap := Function.update (Function.update t.vmap v none) w (some n) }
  (h', (if t.isProd v then { g with prod := some w, decays := t.decays, fsParts := t.fsParts }
    else if isDecayVertex h t v then { g with prod := t.prod, decays := t.decays.map (fun u => if u = v then w else u), fsParts := t.fsParts }
    else { g with prod := t.prod, decays := t.decays, fsParts := t.fsParts }), w)

def replace (a b : ℕ) (l : List ℕ) : List ℕ := l.map fun x => if x = a then b else x

/-- `decayTopology::cloneEdge` (decayTopology.cc:1130-1142, decayGraph.hpp:252-283): a copy of the particle takes its place in the edge, in the vertices at both ends and
in the map. Then the final-state particles are updated, if the old particle still `isFsParticle`. -/
def cloneEdge [Inhabited M] (ht : Heap M × Topo) (k : ℕ) : Outcome (Heap M × Topo) :=
  let (h, t) := ht
  match t.edges[k]? with
  | none => .ub
  | some e =>
    let q := h.parts.length
    let h1 : Heap M := { h with parts := h.parts ++ [h.part e.part] }
    let h2 : Heap M := { h1 with verts := h1.verts.modify (t.vertex e.src) fun x => { x with outs := replace e.part q x.outs } }
    let h3 : Heap M := { h2 with verts := h2.verts.modify (t.vertex e.dst) fun x => { x with ins := replace e.part q x.ins } }
    let t' : Topo := { t with edges := t.edges.set k ⟨e.src, e.dst, q⟩, pmap := Function.update (Function.update t.pmap e.part none) q (some (e.src, e.dst)) }
    .ok (h3, if t'.isFsParticle e.part then { t' with fsParts := replace e.part q t'.fsParts } else t')

/-- cloning of an incoming particle of a cloned vertex (decayTopology.cc:147-162). -/
def cloneIn [Inhabited M] (cloneFs : Bool) (w : ℕ) (ht : Heap M × Topo) (j : ℕ) : Outcome (Heap M × Topo) :=
  let (h, t) := ht
  let p := (h.vtx w).ins.getD j 0
  if t.isFsParticle p ∧ cloneFs = false then .ok (h, t)
  else if t.isEdge p then (t.edge p).bind fun k => cloneEdge (h, t) k
  else .ok ({ parts := h.parts ++ [h.part p], verts := h.verts.modify w fun x => { x with ins := x.ins.set j h.parts.length } }, t)

/-- the incoming particles of one cloned vertex (decayTopology.cc:143-164). -/
def cloneIns [Inhabited M] (cloneFs cloneProd : Bool) (ht : Heap M × Topo) (w : ℕ) : Outcome (Heap M × Topo) :=
  if ht.2.isProd w = false ∨ cloneProd = true then (List.range (ht.1.vtx w).ins.length).foldlM (cloneIn cloneFs w) ht else .ok ht

/-- cloning of the nodes (decayTopology.cc:126-138); which ones are cloned is decided with the original topology. -/
def cloneNodes (h : Heap M) (t : Topo) (cloneFs : Bool) : Heap M × Topo × List ℕ :=
  (List.range t.nodes.length).foldl (fun r n =>
    let v := r.2.1.vertex n
    if isDecayVertex h t v ∨ t.isProd v ∨ (cloneFs = true ∧ isFsVertex h t.toGraph v) then
      let c := cloneNode (r.1, r.2.1) n
      (c.1, c.2.1, r.2.2 ++ [c.2.2])
    else r) (h, t, [])

/-- `decayTopology::doClone` (decayTopology.cc:115-168). -/
def clone [Inhabited M] (h : Heap M) (t : Topo) (cloneFs cloneProd : Bool) : Outcome (Heap M × Topo) :=
  let r := cloneNodes h t cloneFs
  r.2.2.foldlM (cloneIns cloneFs cloneProd) (r.1, r.2.1)

end Rpwa.Dec

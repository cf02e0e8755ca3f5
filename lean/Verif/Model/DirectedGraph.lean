/-!
Model of `include/netlist/DirectedGraph.hpp` (sequential behaviour).

Nodes and edges are heap objects identified by addresses, modelled as `Nat`. An edge object is
owned by its source's out-list; the target's in-list holds a pointer to it. A pointer is modelled
by the edge record (address, source, target), so a dangling in-pointer would be an in-list entry
that occurs in no out-list. Failed `assert`s and operations on nodes that are not in the graph
are the outcome `none`.
-/
namespace Verif.Model

/-- A directed edge object (include/netlist/DirectedGraph.hpp:17-52): its address and the two
endpoint references. -/
structure Edge where
  id : Nat
  src : Nat
  tgt : Nat
deriving DecidableEq, Repr

/-- A node object's edge containers (include/netlist/DirectedGraph.hpp:264-283): `outE` is
`outEdges`, `inE` is `inEdges`, `index` is the optional `outEdgeIndex`. The hash map is modelled
as a partial function. -/
structure NodeObj where
  outE : List Edge := []
  inE : List Edge := []
  index : Option (Nat → Option Edge) := none

/-- `outEdgeIndexThreshold` (include/netlist/DirectedGraph.hpp:283). -/
def indexThreshold : Nat := 16

/-- `try_emplace`/`emplace` on the hash map: keep an existing entry
(include/netlist/DirectedGraph.hpp:328, 337, 347). -/
def tryEmplace (ix : Nat → Option Edge) (t : Nat) (e : Edge) : Nat → Option Edge :=
  fun k => if k = t then (match ix t with | some e' => some e' | none => some e) else ix k

/-- `buildOutEdgeIndex` (include/netlist/DirectedGraph.hpp:324-330). -/
def buildIndex (out : List Edge) : Nat → Option Edge :=
  out.foldl (fun ix e => tryEmplace ix e.tgt e) (fun _ => none)

/-- `lookupOutEdge` (include/netlist/DirectedGraph.hpp:311-320). -/
def lookupOutEdge (n : NodeObj) (t : Nat) : Option Edge :=
  match n.index with
  | some ix => ix t
  | none => n.outE.find? fun e => e.tgt == t

/-- Push an edge on `outEdges`, then `insertOutEdgeIndex`/`tryInsertOutEdgeIndex`
(include/netlist/DirectedGraph.hpp:152-153, 176-180, 185-186, 335-351). Both index variants keep an
existing entry, so they coincide. -/
def pushOut (n : NodeObj) (e : Edge) : NodeObj :=
  let out := n.outE ++ [e]
  { n with
    outE := out
    index :=
      match n.index with
      | some ix => some (tryEmplace ix e.tgt e)
      | none => if out.length > indexThreshold then some (buildIndex out) else none }

/-- `inEdges.push_back` (include/netlist/DirectedGraph.hpp:155, 158, 181, 190). -/
def pushIn (n : NodeObj) (e : Edge) : NodeObj := { n with inE := n.inE ++ [e] }

/-- `removeInEdge` (include/netlist/DirectedGraph.hpp:299-306): erase the first in-edge from the
given source; the flag says whether one existed. -/
def removeInEdge (n : NodeObj) (s : Nat) : NodeObj × Bool :=
  if n.inE.any (fun e => e.src == s) then
    ({ n with inE := n.inE.eraseP fun e => e.src == s }, true)
  else (n, false)

/-- Erase the first out-edge to a target and repair the index
(include/netlist/DirectedGraph.hpp:203-215). -/
def eraseOut (n : NodeObj) (t : Nat) : NodeObj :=
  let out := n.outE.eraseP fun e => e.tgt == t
  { n with
    outE := out
    index :=
      match n.index with
      | none => none
      | some ix => some fun k => if k = t then out.find? (fun e => e.tgt == t) else ix k }

/-- The graph: the node vector and the heap of node objects
(include/netlist/DirectedGraph.hpp:358-482). `nextNode`/`nextEdge` supply fresh addresses. -/
structure DGraph where
  nodes : List Nat := []
  obj : Nat → NodeObj := fun _ => {}
  nextNode : Nat := 0
  nextEdge : Nat := 0

/-- Mutate one node object in place (include/netlist/DirectedGraph.hpp:264-283). -/
def DGraph.upd (g : DGraph) (n : Nat) (f : NodeObj → NodeObj) : DGraph :=
  { g with obj := fun m => if m = n then f (g.obj n) else g.obj m }

/-- `DirectedGraph::addNode` (include/netlist/DirectedGraph.hpp:397-410). The new object starts
with empty containers. -/
def DGraph.addNode (g : DGraph) : DGraph × Nat :=
  let g' := g.upd g.nextNode fun _ => {}
  ({ g' with nodes := g.nodes ++ [g.nextNode], nextNode := g.nextNode + 1 }, g.nextNode)

/-- `Node::addNewEdge` (include/netlist/DirectedGraph.hpp:170-194), sequentially. -/
def DGraph.addNewEdge (g : DGraph) (s t : Nat) : DGraph × Edge :=
  let e : Edge := ⟨g.nextEdge, s, t⟩
  let g := (g.upd s fun n => pushOut n e).upd t fun n => pushIn n e
  ({ g with nextEdge := g.nextEdge + 1 }, e)

/-- `Node::addEdge` (include/netlist/DirectedGraph.hpp:144-161), sequentially: return the existing
edge if there is one, otherwise create one. -/
def DGraph.addEdge (g : DGraph) (s t : Nat) : DGraph × Edge :=
  match lookupOutEdge (g.obj s) t with
  | some e => (g, e)
  | none => g.addNewEdge s t

/-- `Node::removeEdge` (include/netlist/DirectedGraph.hpp:198-219). `none` is the failed
assertion of line 202. -/
def DGraph.removeEdge (g : DGraph) (s t : Nat) : Option (DGraph × Bool) :=
  if (g.obj s).outE.any (fun e => e.tgt == t) then
    let r := removeInEdge (g.obj t) s
    if r.2 then
      some ((g.upd t fun _ => r.1).upd s fun n => eraseOut n t, true)
    else none
  else some (g, false)

/-- First loop of `clearAllEdges` (include/netlist/DirectedGraph.hpp:224-226). -/
def DGraph.dropInEdges (g : DGraph) (n : Nat) : List Edge → DGraph
  | [] => g
  | e :: es => DGraph.dropInEdges (g.upd e.tgt fun o => (removeInEdge o n).1) n es

/-- Last loop of `clearAllEdges` (include/netlist/DirectedGraph.hpp:235-237). -/
def DGraph.removeFrom (g : DGraph) (n : Nat) : List Nat → Option DGraph
  | [] => some g
  | s :: ss =>
    match g.removeEdge s n with
    | none => none
    | some (g', _) => DGraph.removeFrom g' n ss

/-- `Node::clearAllEdges` (include/netlist/DirectedGraph.hpp:222-239). `none` is a failed
assertion. -/
def DGraph.clearAllEdges (g : DGraph) (n : Nat) : Option DGraph :=
  let g1 := g.dropInEdges n (g.obj n).outE
  let g2 := g1.upd n fun o => { o with outE := [], index := none }
  match g2.removeFrom n ((g2.obj n).inE.map Edge.src) with
  | none => none
  | some g3 => if (g3.obj n).inE = [] then some g3 else none

/-- `DirectedGraph::removeNode` (include/netlist/DirectedGraph.hpp:416-427). -/
def DGraph.removeNode (g : DGraph) (n : Nat) : Option (DGraph × Bool) :=
  if n ∈ g.nodes then
    match g.clearAllEdges n with
    | none => none
    | some g' => some ({ g' with nodes := g'.nodes.erase n }, true)
  else some (g, false)

/-- Calls a client can make (include/netlist/DirectedGraph.hpp:397-450, 222). -/
inductive GOp where
  | addNode
  | addEdge (s t : Nat)
  | addNewEdge (s t : Nat)
  | removeEdge (s t : Nat)
  | clearAllEdges (n : Nat)
  | removeNode (n : Nat)
deriving DecidableEq, Repr

/-- Values returned by those calls (include/netlist/DirectedGraph.hpp:397-450). -/
inductive GOut where
  | node (n : Nat)
  | edge (e : Edge)
  | flag (b : Bool)
  | unit
deriving DecidableEq, Repr

/-- One call. The graph-level wrappers assert that the nodes exist
(include/netlist/DirectedGraph.hpp:431-432, 439-440, 447-448); calling a method of a node object
that was destroyed is likewise outside the contract. Both are `none`. -/
def DGraph.call (g : DGraph) : GOp → Option (DGraph × GOut)
  | .addNode => let r := g.addNode; some (r.1, .node r.2)
  | .addEdge s t =>
    if s ∈ g.nodes ∧ t ∈ g.nodes then
      let r := g.addEdge s t; some (r.1, .edge r.2) else none
  | .addNewEdge s t =>
    if s ∈ g.nodes ∧ t ∈ g.nodes then
      let r := g.addNewEdge s t; some (r.1, .edge r.2) else none
  | .removeEdge s t =>
    if s ∈ g.nodes ∧ t ∈ g.nodes then
      (g.removeEdge s t).map fun r => (r.1, .flag r.2) else none
  | .clearAllEdges n =>
    if n ∈ g.nodes then (g.clearAllEdges n).map fun r => (r, .unit) else none
  | .removeNode n => (g.removeNode n).map fun r => (r.1, .flag r.2)

/-- A history of calls, with the values returned (include/netlist/DirectedGraph.hpp:397-450). -/
def DGraph.calls (g : DGraph) : List GOp → Option (DGraph × List GOut)
  | [] => some (g, [])
  | op :: ops =>
    match g.call op with
    | none => none
    | some (g', o) =>
      match DGraph.calls g' ops with
      | none => none
      | some (g'', os) => some (g'', o :: os)

/-- `getEdgesTo` (include/netlist/DirectedGraph.hpp:243-252). -/
def DGraph.getEdgesTo (g : DGraph) (s t : Nat) : List Edge :=
  (g.obj s).outE.filter fun e => e.tgt == t

/-- `findEdgeTo` (include/netlist/DirectedGraph.hpp:118-129). -/
def DGraph.findEdgeTo (g : DGraph) (s t : Nat) : Option Edge :=
  (g.obj s).outE.find? fun e => e.tgt == t

/-- `findEdgeFrom`, called on the target node (include/netlist/DirectedGraph.hpp:103-115). The
iterator returned is modelled by the edge it points to. -/
def DGraph.findEdgeFrom (g : DGraph) (t s : Nat) : Option Edge :=
  (g.obj t).inE.find? fun e => e.src == s

/-- `inDegree` of a node (include/netlist/DirectedGraph.hpp:258-259, 458-462). -/
def DGraph.inDegree (g : DGraph) (n : Nat) : Nat := (g.obj n).inE.length

/-- `outDegree` of a node (include/netlist/DirectedGraph.hpp:261-262, 452-456). -/
def DGraph.outDegree (g : DGraph) (n : Nat) : Nat := (g.obj n).outE.length

/-- `numEdges` (include/netlist/DirectedGraph.hpp:468-474). -/
def DGraph.numEdges (g : DGraph) : Nat := (g.nodes.map fun n => (g.obj n).outE.length).sum

end Verif.Model

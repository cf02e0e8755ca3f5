import Verif.Model.NetGraph

/-!
Several netlists in one process. Node IDs are drawn from one counter for all of them
(include/netlist/NetlistNode.hpp:40-41, 68, source/NetlistNode.cpp:6), which the construction of any
`NetlistBuilder` sets back to one (source/NetlistBuilder.cpp:36-42).
-/
namespace Verif.Model

/-- The counter of node IDs and the netlists of a process (include/netlist/NetlistNode.hpp:68,
source/NetlistNode.cpp:6). Netlists are numbered; the field `nextID` of each is not used here. -/
structure Proc where
  counter : Nat := 1
  net : Nat → NetGraph := fun _ => {}

/-- One call on one netlist, by any thread. `resetIds` is the construction of a builder for the netlist
(source/NetlistBuilder.cpp:36-42); builds (source/NetlistGraph.cpp:18-25) start with it, loads
(source/NetlistSerializer.cpp:265-404) do not have it. Simplified: drawing the ID of a node
(include/netlist/NetlistNode.hpp:40-41) and adding the node (include/netlist/DirectedGraph.hpp:397-403) are one step. -/
def Proc.step (s : Proc) (c : Nat × NetOp) : Option Proc :=
  match ({ s.net c.1 with nextID := s.counter } : NetGraph).call c.2 with
  | none => none
  | some n => some { counter := n.nextID, net := fun k => if k = c.1 then n else s.net k }

/-- A history of calls (source/NetlistGraph.cpp:18-25, source/NetlistSerializer.cpp:265-404). -/
def Proc.steps (s : Proc) : List (Nat × NetOp) → Option Proc
  | [] => some s
  | c :: cs =>
    match s.step c with
    | none => none
    | some s' => s'.steps cs

/-- `NetlistBuilder::merge` (source/NetlistBuilder.cpp:247-257), with the comparison of IDs. -/
def NetGraph.merge (net : NetGraph) (a b : Nat) : Option (NetGraph × Nat) :=
  if net.id a = net.id b then some (net, a)
  else match net.calls [.addNode .merge, .addEdge a net.g.nextNode, .addEdge b net.g.nextNode] with
    | none => none
    | some net' => some (net', net.g.nextNode)

end Verif.Model

import Verif.Model.NetGraph
import Verif.Model.Dfs

/-!
Model of the traversal-based queries: `source/PathFinder.cpp`, `source/NetlistGraph.cpp`
(fan-in/fan-out, constant drivers, sensitivity), `source/CycleDetector.hpp`,
`source/CombLoops.cpp`.
-/
namespace Verif.Model

/-- `EdgePredicate` (source/PathFinder.cpp:35-38). -/
def enabledPred (net : NetGraph) (e : Edge) : Bool := !(net.attr e.id).disabled

/-- `CombEdgePredicate`/`CombFanPredicate` (source/PathFinder.cpp:42-47,
source/CombLoops.cpp:11-17, source/NetlistGraph.cpp:125-129). -/
def combPred (net : NetGraph) (e : Edge) : Bool :=
  !(net.attr e.id).disabled && net.kind e.tgt != .state

/-- `CombFanBackwardPredicate` (source/NetlistGraph.cpp:131-135). -/
def combBackPred (net : NetGraph) (e : Edge) : Bool :=
  !(net.attr e.id).disabled && net.kind e.src != .state

/-- Traversal parameters for `Direction::Forward` (source/DepthFirstSearch.hpp:45-71). -/
def fwdAdj (net : NetGraph) (ok : Edge → Bool) : Adj Edge where
  edges n := (net.g.obj n).outE
  ok := ok
  next e := e.tgt

/-- Traversal parameters for `Direction::Backward` (source/DepthFirstSearch.hpp:45-71). -/
def bwdAdj (net : NetGraph) (ok : Edge → Bool) : Adj Edge where
  edges n := (net.g.obj n).inE
  ok := ok
  next e := e.src

/-- Parent map filled by `Visitor::visitEdge` (source/PathFinder.cpp:17-33) as an association
list, newest entry first. `none` is the failed assertion of line 25. -/
def parentMap : List (Ev Edge) → Option (List (Nat × Nat))
  | [] => some []
  | ev :: evs =>
    match parentMap evs with
    | none => none
    | some m =>
      match ev with
      | .visitEdge e => if (m.lookup e.tgt).isSome then none else some ((e.tgt, e.src) :: m)
      | .visitNode _ => some m
      | .visitedNode _ => some m
      | .popNode => some m

/-- The do-while loop of `buildPath` (source/PathFinder.cpp:60-64). Nodes are consed, which makes
the final `reverse` of line 65. `none` is the failed assertion of line 62; running out of `fuel`
would be a loop longer than the map. -/
def parentLoop (m : List (Nat × Nat)) (start : Nat) : Nat → Nat → List Nat → Option (List Nat)
  | 0, _, _ => none
  | fuel + 1, cur, acc =>
    match m.lookup cur with
    | none => none
    | some p => if p = start then some (p :: acc) else parentLoop m start fuel p (p :: acc)

/-- `buildPath` (source/PathFinder.cpp:49-67). -/
def buildPath (m : List (Nat × Nat)) (start stop : Nat) : Option (List Nat) :=
  if (m.lookup stop).isNone then some []
  else if start = stop then some [stop]
  else parentLoop m start m.length stop [stop]

/-- `PathFinder::find`/`findComb` for a given predicate (source/PathFinder.cpp:71-87).
`some []` is the empty path; `none` is a failed assertion. The log is newest first, as is the
map. -/
def findPathWith (net : NetGraph) (ok : Edge → Bool) (start stop : Nat) : Option (List Nat) :=
  match parentMap (dfsRun (fwdAdj net ok) net.g.nodes start).log with
  | none => none
  | some m => buildPath m start stop

/-- `PathFinder::find` (source/PathFinder.cpp:71-78). -/
def findPath (net : NetGraph) (start stop : Nat) : Option (List Nat) :=
  findPathWith net (enabledPred net) start stop

/-- `PathFinder::findComb` (source/PathFinder.cpp:80-87). -/
def findComb (net : NetGraph) (start stop : Nat) : Option (List Nat) :=
  findPathWith net (combPred net) start stop

/-- `CollectVisitor` (source/NetlistGraph.cpp:137-147). -/
def collect : List (Ev Edge) → List Nat
  | [] => []
  | .visitNode n :: evs => n :: collect evs
  | .visitedNode _ :: evs => collect evs
  | .visitEdge _ :: evs => collect evs
  | .popNode :: evs => collect evs

/-- `getCombFanOut` (source/NetlistGraph.cpp:151-159). -/
def combFanOut (net : NetGraph) (n : Nat) : List Nat :=
  collect (dfsEvents (fwdAdj net (combPred net)) net.g.nodes n)

/-- `getCombFanIn` (source/NetlistGraph.cpp:161-169). -/
def combFanIn (net : NetGraph) (n : Nat) : List Nat :=
  collect (dfsEvents (bwdAdj net (combBackPred net)) net.g.nodes n)

/-- `Port::isDriven` (include/netlist/NetlistNode.hpp:93). -/
def isDriven (net : NetGraph) (n : Nat) : Bool := (net.g.obj n).inE.length > 0

/-- The loop of `getConstantDrivers` (source/NetlistGraph.cpp:228-251); `none` is an early
`return {}`. -/
def constLoop (net : NetGraph) (node : Nat) : List Nat → List Nat → Option (List Nat)
  | [], acc => some acc
  | n :: ns, acc =>
    if n = node then constLoop net node ns acc
    else match net.kind n with
      | .constant => constLoop net node ns (acc ++ [n])
      | .state => none
      | .port => if isDriven net n then constLoop net node ns acc else none
      | _ => constLoop net node ns acc

/-- `getConstantDrivers` (source/NetlistGraph.cpp:224-256). -/
def constantDrivers (net : NetGraph) (n : Nat) : List Nat :=
  match constLoop net n (combFanIn net n) [] with
  | none => []
  | some cs => cs

/-- The visitor state of `CycleDetectionVisitor` (source/CycleDetector.hpp:54-55). The recursion
stack is kept with its top at the head. -/
structure CycVisitor where
  stack : List Nat := []
  cycles : List (List Nat) := []

/-- `std::min_element` by ID: position of the first element with the least ID
(source/CycleDetector.hpp:29-31). -/
def minPos (id : Nat → Nat) : List Nat → Nat
  | [] => 0
  | [_] => 0
  | a :: b :: l =>
    let k := minPos id (b :: l)
    match (b :: l)[k]? with
    | some x => if id x < id a then k + 1 else 0
    | none => 0

/-- `std::rotate` to the minimum (source/CycleDetector.hpp:32). -/
def rotateMin (id : Nat → Nat) (l : List Nat) : List Nat :=
  l.drop (minPos id l) ++ l.take (minPos id l)

/-- The part of the recursion stack from a node to the top, oldest first
(source/CycleDetector.hpp:20-26). -/
def stackFrom (n : Nat) (stack : List Nat) : List Nat :=
  stack.reverse.dropWhile (fun m => m != n)

/-- One visitor callback (source/CycleDetector.hpp:18-50). -/
def cycEvent (id : Nat → Nat) (v : CycVisitor) : Ev Edge → CycVisitor
  | .visitNode n => { v with stack := n :: v.stack }
  | .visitedNode n =>
    if n ∈ v.stack then { v with cycles := v.cycles ++ [rotateMin id (stackFrom n v.stack)] }
    else v
  | .visitEdge _ => v
  | .popNode => { v with stack := v.stack.tail }

/-- The cycles collected by one traversal (source/CycleDetector.hpp:75-86). -/
def cyclesFrom (net : NetGraph) (ok : Edge → Bool) (start : Nat) : List (List Nat) :=
  ((dfsEvents (fwdAdj net ok) net.g.nodes start).foldl (cycEvent net.id) {}).cycles

/-- `std::set<CycleType>::insert` of one cycle: no duplicates. The set's order (by address) is
overwritten by the final sort (source/CycleDetector.hpp:71, 94, 98). -/
def insertCycle (cs : List (List Nat)) (c : List Nat) : List (List Nat) :=
  if c ∈ cs then cs else cs ++ [c]

/-- The loop of `detectCycles` (source/CycleDetector.hpp:74-95) over the remaining nodes, with
the `visitedNodes` set and the set of cycles. -/
def detectLoop (net : NetGraph) (ok : Edge → Bool) :
    List Nat → List Nat → List (List Nat) → List (List Nat)
  | [], _, cycles => cycles
  | n :: ns, visited, cycles =>
    if n ∈ visited then detectLoop net ok ns visited cycles
    else
      let cs := cyclesFrom net ok n
      detectLoop net ok ns (n :: visited ++ cs.flatten) (cs.foldl insertCycle cycles)

/-- `std::lexicographical_compare` by node ID (source/CycleDetector.hpp:101-106). -/
def lexLess (id : Nat → Nat) : List Nat → List Nat → Bool
  | _, [] => false
  | [], _ :: _ => true
  | a :: as, b :: bs =>
    if id a < id b then true else if id b < id a then false else lexLess id as bs

/-- Sorting by `lexLess` (source/CycleDetector.hpp:107), modelled as insertion sort. `std::sort`
is not stable, but distinct cycles are never equivalent under the comparator when node IDs are
unique (proved), so the result is determined. -/
def insertSorted (id : Nat → Nat) (c : List Nat) : List (List Nat) → List (List Nat)
  | [] => [c]
  | d :: ds => if lexLess id d c then d :: insertSorted id c ds else c :: d :: ds

/-- See `insertSorted` (source/CycleDetector.hpp:107). -/
def sortCycles (id : Nat → Nat) : List (List Nat) → List (List Nat)
  | [] => []
  | c :: cs => insertSorted id c (sortCycles id cs)

/-- `detectCycles` (source/CycleDetector.hpp:70-110). -/
def detectCycles (net : NetGraph) (ok : Edge → Bool) : List (List Nat) :=
  sortCycles net.id (detectLoop net ok net.g.nodes [] [])

/-- `CombLoops::getAllLoops` (source/CombLoops.cpp:21-26). -/
def combLoops (net : NetGraph) : List (List Nat) := detectCycles net (combPred net)

/-- `collectFromState` (source/NetlistGraph.cpp:175-191) over the in-edges of a State node. -/
def collectFromEdges (net : NetGraph) : List Edge → List (Nat × EdgeKind) → List (Nat × EdgeKind)
  | [], acc => acc
  | e :: es, acc =>
    if (net.attr e.id).disabled || (net.attr e.id).edgeKind == .none then
      collectFromEdges net es acc
    else if acc.any (fun x => x.1 == e.src && x.2 == (net.attr e.id).edgeKind) then
      collectFromEdges net es acc
    else collectFromEdges net es (acc ++ [(e.src, (net.attr e.id).edgeKind)])

/-- State of the forward walk in `getSensitivity` (source/NetlistGraph.cpp:200-203). -/
structure SensState where
  visited : List Nat
  stack : List Nat
  result : List (Nat × EdgeKind)

/-- The inner loop over the out-edges of one node (source/NetlistGraph.cpp:207-219). -/
def sensEdges (net : NetGraph) : List Edge → SensState → SensState
  | [], s => s
  | e :: es, s =>
    if (net.attr e.id).disabled then sensEdges net es s
    else if net.kind e.tgt = .state then
      sensEdges net es { s with result := collectFromEdges net (net.g.obj e.tgt).inE s.result }
    else if e.tgt ∈ s.visited then sensEdges net es s
    else sensEdges net es { s with visited := e.tgt :: s.visited, stack := e.tgt :: s.stack }

/-- The outer loop (source/NetlistGraph.cpp:204-220), with fuel: one iteration per visited node.
-/
def sensLoop (net : NetGraph) : Nat → SensState → SensState
  | 0, s => s
  | fuel + 1, s =>
    match s.stack with
    | [] => s
    | cur :: rest => sensLoop net fuel (sensEdges net (net.g.obj cur).outE { s with stack := rest })

/-- `getSensitivity` (source/NetlistGraph.cpp:171-222). -/
def sensitivity (net : NetGraph) (n : Nat) : List (Nat × EdgeKind) :=
  if net.kind n = .state then collectFromEdges net (net.g.obj n).inE []
  else (sensLoop net (net.g.nodes.length + 1) ⟨[n], [n], []⟩).result

end Verif.Model

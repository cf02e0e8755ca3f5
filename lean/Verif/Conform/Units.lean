import Verif.Conform.Base
import Verif.Model.Cli
import Verif.Model.Cuts
import Verif.Model.External
import Verif.Model.Intern
import Verif.Model.Serial
import Verif.Model.Table
import Verif.Model.ValueTracker

/-!
The model on the unit tests of single classes: each theorem makes the calls of one test under `tests/unit`
and evaluates its checks. These are tests of the model, not proofs about the code. Left out are tests of what
is not modelled: `Config`, `file_name`, the source locations of slang, JSON text that does not parse.
-/
namespace Verif.Conform.Units
open Verif.Model

/-- Did a call return this value, without a fault? -/
def said (r : Except Fault Bool) (b : Bool) : Bool :=
  match r with
  | .ok c => c == b
  | .error _ => false

/-- wildcardMatch exact literal. tests/unit/WildcardTests.cpp:8-14. -/
theorem wildWildcardMatchExactLiteral : (said (glob (chs "foo.bar") (chs "foo.bar")) true
    && said (glob (chs "foo.bar") (chs "foo.baz")) false
    && said (glob (chs "foo.bar") (chs "foo")) false
    && said (glob (chs "foo") (chs "foo.bar")) false
    && said (glob [] []) true) = true := by
  decide +kernel

/-- wildcardMatch * is single-segment. tests/unit/WildcardTests.cpp:16-26. -/
theorem wildWildcardMatchStarIsSinglesegment : (said (glob (chs "foo") (chs "*")) true
    && said (glob (chs "foo.bar") (chs "foo.*")) true
    && said (glob (chs "foo.bar") (chs "*.bar")) true
    && said (glob (chs "foo.bar") (chs "f*.b*")) true
    && said (glob (chs "foo.bar") (chs "*")) false
    && said (glob (chs "foo.bar.baz") (chs "foo.*")) false
    && said (glob (chs "foo.bar.baz") (chs "*.baz")) false) = true := by
  decide +kernel

/-- wildcardMatch * matches empty. tests/unit/WildcardTests.cpp:28-33. -/
theorem wildWildcardMatchStarMatchesEmpty : (said (glob (chs "foo") (chs "foo*")) true
    && said (glob (chs "foo") (chs "*foo")) true
    && said (glob (chs "foo") (chs "*foo*")) true
    && said (glob [] (chs "*")) true) = true := by
  decide +kernel

/-- wildcardMatch ** crosses path boundaries. tests/unit/WildcardTests.cpp:35-46. -/
theorem wildWildcardMatchTwoStarsCrossesPathBoundaries : (said (glob (chs "foo.bar.baz") (chs "**")) true
    && said (glob (chs "foo.bar.baz") (chs "foo.**")) true
    && said (glob (chs "foo.bar.baz") (chs "**.baz")) true
    && said (glob (chs "foo.bar.baz") (chs "foo.**.baz")) true
    && said (glob (chs "foo.baz") (chs "foo.**.baz")) true
    && said (glob (chs "foo.x.y.z.baz") (chs "foo.**.baz")) true
    && said (glob (chs "foo") (chs "**")) true
    && said (glob [] (chs "**")) true) = true := by
  decide +kernel

/-- wildcardMatch ** segment-boundary zero-segment cases. tests/unit/WildcardTests.cpp:48-67. -/
theorem wildWildcardMatchTwoStarsSegmentboundaryZerosegmentCases : (said (glob (chs "foo") (chs "foo.**")) true
    && said (glob (chs "foo.x") (chs "foo.**")) true
    && said (glob (chs "foo.x.y") (chs "foo.**")) true
    && said (glob (chs "fo") (chs "foo.**")) false
    && said (glob (chs "foox") (chs "foo.**")) false
    && said (glob (chs "baz") (chs "**.baz")) true
    && said (glob (chs "x.baz") (chs "**.baz")) true
    && said (glob (chs "x.y.baz") (chs "**.baz")) true
    && said (glob (chs "xbaz") (chs "**.baz")) false
    && said (glob (chs "fooXbaz") (chs "foo.**.baz")) false) = true := by
  decide +kernel

/-- wildcardMatch ... is equivalent to **. tests/unit/WildcardTests.cpp:69-82. -/
theorem wildWildcardMatchDotsIsEquivalentToTwoStars : (said (glob (chs "foo.bar.baz") (chs "...")) true
    && said (glob (chs "foo.bar.baz") (chs "foo...")) true
    && said (glob (chs "foo.bar.baz") (chs "...baz")) true
    && said (glob (chs "foo.bar.baz") (chs "foo....baz")) true
    && said (glob (chs "foo.baz") (chs "foo....baz")) true
    && said (glob (chs "foo.x.y.z.baz") (chs "foo....baz")) true
    && said (glob [] (chs "...")) true) = true := by
  decide +kernel

/-- wildcardMatch ? is single non-. character. tests/unit/WildcardTests.cpp:84-94. -/
theorem wildWildcardMatchQuestionMarkIsSingleNonCharacter : (said (glob (chs "a") (chs "?")) true
    && said (glob (chs "foo.a") (chs "foo.?")) true
    && said (glob (chs "foo.ab") (chs "foo.??")) true
    && said (glob (chs "foo.ab") (chs "foo.?")) false
    && said (glob [] (chs "?")) false
    && said (glob (chs "a.b") (chs "a?b")) false
    && said (glob (chs ".") (chs "?")) false) = true := by
  decide +kernel

/-- wildcardMatch combinations. tests/unit/WildcardTests.cpp:96-110. -/
theorem wildWildcardMatchCombinations : (said (glob (chs "top.u_a") (chs "top.u_*")) true
    && said (glob (chs "top.u_bar") (chs "top.u_*")) true
    && said (glob (chs "top.u_a.x") (chs "top.u_*")) false
    && said (glob (chs "top.u_a.x.y") (chs "top.**.y")) true
    && said (glob (chs "top.u_a") (chs "top.u_?")) true
    && said (glob (chs "top.u_ab") (chs "top.u_?")) false
    && said (glob (chs "top.u_ab") (chs "top.u_?*")) true) = true := by
  decide +kernel

/-- pathInScope subtree matching. tests/unit/WildcardTests.cpp:112-129. -/
theorem wildPathInScopeSubtreeMatching : (said (pathInScope (chs "top.cpu") (chs "top.cpu")) true
    && said (pathInScope (chs "top.cpu.alu") (chs "top.cpu")) true
    && said (pathInScope (chs "top.cpu.alu.x") (chs "top.cpu")) true
    && said (pathInScope (chs "top.cpu2") (chs "top.cpu")) false
    && said (pathInScope (chs "top.cpualu") (chs "top.cpu")) false
    && said (pathInScope (chs "top") (chs "top.cpu")) false
    && said (pathInScope (chs "top.mem") (chs "top.cpu")) false
    && said (pathInScope (chs "top.c") (chs "top.cpu")) false) = true := by
  decide +kernel

/-- Does a text contain another? (`std::string::find`) -/
def holdsText (s t : Str) : Bool := (List.range (s.length + 1)).any fun i => (s.drop i).take t.length == t

/-- Utilities::formatTable basic. tests/unit/UtilityTests.cpp:26-38. -/
theorem tableBasic :
    (let r := formatTable [chs "Name", chs "Value"] [[chs "a", chs "1"], [chs "bb", chs "22"]] 2
     holdsText r (chs "Name") && holdsText r (chs "Value") && holdsText r (chs "a") && holdsText r (chs "bb")
       && (r.filter (· = '\n')).length == 3) = true := by
  decide +kernel

/-- Utilities::formatTable column alignment, and with short row. tests/unit/UtilityTests.cpp:40-47, 49-56. -/
theorem tableColumns :
    (holdsText (formatTable [chs "X", chs "Y"] [[chs "long_value", chs "1"]] 2) (chs "long_value")
      && holdsText (formatTable [chs "A", chs "B", chs "C"] [[chs "x"]] 2) (chs "x")) = true := by
  decide +kernel

/-- DriverBitRange toString. tests/unit/UtilityTests.cpp:84-87, 89-92. -/
theorem rangeToString : rangeText ⟨3, 0⟩ = chs "[3:0]" ∧ rangeText ⟨5, 5⟩ = chs "[5]" := by
  have h : ∀ n, n < 10 → decNat n = [Char.ofNat (48 + n)] := fun n h => by unfold decNat; simp [h]
  constructor
  · show '[' :: decNat 3 ++ ':' :: decNat 0 ++ [']'] = _
    rw [h 3 (by decide), h 0 (by decide)]; rfl
  · show '[' :: decNat 5 ++ [']'] = _
    rw [h 5 (by decide)]; rfl

/-- DriverBitRange toPair normalises order. tests/unit/UtilityTests.cpp:94-110. -/
theorem rangeToPair :
    ([⟨3, 0⟩, ⟨0, 3⟩, ⟨5, 5⟩] : List BitRange).map (fun b => (b.lower, b.upper)) = [(0, 3), (0, 3), (5, 5)] := by
  decide +kernel

/-- DriverBitRange isContiguousWith. tests/unit/UtilityTests.cpp:112-133. -/
theorem rangeIsContiguousWith :
    ((BitRange.mk 0 1).contiguous ⟨2, 3⟩ && (BitRange.mk 2 3).contiguous ⟨0, 1⟩
      && (BitRange.mk 0 4).contiguous ⟨3, 7⟩ && (BitRange.mk 3 7).contiguous ⟨0, 4⟩
      && (BitRange.mk 0 15).contiguous ⟨4, 7⟩
      && !(BitRange.mk 0 1).contiguous ⟨3, 4⟩ && !(BitRange.mk 3 4).contiguous ⟨0, 1⟩
      && (BitRange.mk 4 4).contiguous ⟨5, 5⟩ && !(BitRange.mk 4 4).contiguous ⟨6, 6⟩) = true := by
  decide +kernel

/-- DriverBitRange unionWith. tests/unit/UtilityTests.cpp:135-156. -/
theorem rangeUnionWith :
    [(BitRange.mk 0 1).unionWith ⟨2, 3⟩, (BitRange.mk 0 4).unionWith ⟨3, 7⟩, (BitRange.mk 0 15).unionWith ⟨4, 7⟩,
      (BitRange.mk 5 7).unionWith ⟨4, 4⟩].map (fun b => (b.lower, b.upper)) = [(0, 3), (0, 7), (0, 15), (4, 7)] := by
  decide +kernel

/-- DriverBitRange intersection. tests/unit/UtilityTests.cpp:158-185. -/
theorem rangeIntersection :
    [(BitRange.mk 0 7).intersection ⟨2, 5⟩, (BitRange.mk 2 5).intersection ⟨0, 15⟩,
      (BitRange.mk 0 1).intersection ⟨2, 3⟩, (BitRange.mk 0 1).intersection ⟨10, 15⟩,
      (BitRange.mk 0 3).intersection ⟨3, 5⟩].map (Option.map fun b => (b.lower, b.upper))
      = [some (2, 5), some (2, 5), none, none, some (3, 3)] := by
  decide +kernel

/-- The graph after some calls, and what the calls returned; `f` are the checks. -/
def afterOps (ops : List GOp) (f : DGraph → List GOut → Bool) : Bool :=
  match DGraph.calls {} ops with
  | some (g, os) => f g os
  | none => false

def outD (g : DGraph) (n : Nat) : Nat := (g.obj n).outE.length
def inD (g : DGraph) (n : Nat) : Nat := (g.obj n).inE.length

/-- Empty graph; self-loop edge. tests/unit/DirectedGraphTests.cpp:21-25, 27-33. -/
theorem graphEmpty : afterOps [] (fun g _ => g.nodes.length == 0 && g.numEdges == 0) = true := by
  decide +kernel
theorem graphSelfLoop : afterOps [.addNode, .addEdge 0 0] (fun g _ => outD g 0 == 1 && inD g 0 == 1) = true := by
  decide +kernel

/-- Node equality and aliasing. tests/unit/DirectedGraphTests.cpp:35-42. -/
theorem graphNodeEquality :
    afterOps [.addNode, .addNode] (fun g os => g.nodes[0]? == some 0 && os == [.node 0, .node 1]) = true := by
  decide +kernel

/-- Edge equality and uniqueness; edge inequality. tests/unit/DirectedGraphTests.cpp:44-53, 55-63. -/
theorem graphEdgeEquality :
    afterOps [.addNode, .addNode, .addEdge 0 1, .addEdge 0 1]
      (fun g os => os[2]? == os[3]? && (g.findEdgeTo 0 1).map GOut.edge == os[2]?) = true := by
  decide +kernel
theorem graphEdgeInequality :
    afterOps [.addNode, .addNode, .addNode, .addEdge 0 1, .addEdge 1 2] (fun _ os => os[3]? != os[4]?) = true := by
  decide +kernel

/-- Basic connectivity and degrees. tests/unit/DirectedGraphTests.cpp:65-94. -/
theorem graphDegrees :
    afterOps [.addNode, .addNode, .addNode, .addNode, .addEdge 0 1, .addEdge 0 2, .addEdge 0 3, .addEdge 1 2,
      .addEdge 1 3, .addEdge 2 3]
      (fun g _ => g.nodes.length == 4 && g.numEdges == 6 && g.nodes.map (outD g) == [3, 2, 1, 0]
        && g.nodes.map (inD g) == [0, 1, 2, 3]) = true := by
  decide +kernel

/-- Remove node updates degrees. tests/unit/DirectedGraphTests.cpp:96-106. -/
theorem graphRemoveNode :
    afterOps [.addNode, .addNode, .addEdge 0 1, .addEdge 1 0, .removeNode 0]
      (fun g os => os[4]? == some (.flag true) && !g.nodes.contains 0 && inD g 1 == 0 && outD g 1 == 0) = true := by
  decide +kernel

/-- Remove edge updates degrees. tests/unit/DirectedGraphTests.cpp:108-118. -/
theorem graphRemoveEdge :
    afterOps [.addNode, .addNode, .addEdge 0 1, .removeEdge 0 1, .removeEdge 0 1]
      (fun g os => os.drop 3 == [.flag true, .flag false] && outD g 0 == 0 && inD g 1 == 0) = true := by
  decide +kernel

/-- Iteration over nodes and edges. tests/unit/DirectedGraphTests.cpp:120-140. -/
theorem graphIteration :
    afterOps [.addNode, .addNode, .addEdge 0 1] (fun g _ => g.nodes.length == 2 && (g.obj 0).outE.length == 1)
      = true := by
  decide +kernel

/-- Clear all edges from node. tests/unit/DirectedGraphTests.cpp:142-153. -/
theorem graphClearEdges :
    afterOps [.addNode, .addNode, .addNode, .addEdge 0 1, .addEdge 0 2, .clearAllEdges 0]
      (fun g _ => outD g 0 == 0 && inD g 1 == 0 && inD g 2 == 0) = true := by
  decide +kernel

/-- Remove non-existent node/edge. tests/unit/DirectedGraphTests.cpp:155-162. -/
theorem graphRemoveMissing :
    afterOps [.addNode, .addNode, .removeNode 7, .removeEdge 0 1]
      (fun _ os => os.drop 2 == [.flag false, .flag false]) = true := by
  decide +kernel

/-- Duplicate edge is not added twice. tests/unit/DirectedGraphTests.cpp:164-174. -/
theorem graphDuplicateEdge :
    afterOps [.addNode, .addNode, .addEdge 0 1, .addEdge 0 1]
      (fun g os => os[2]? == os[3]? && g.numEdges == 1 && outD g 0 == 1 && inD g 1 == 1) = true := by
  decide +kernel

/-- Remove edge from node with multiple edges. tests/unit/DirectedGraphTests.cpp:176-187. -/
theorem graphRemoveOneEdge :
    afterOps [.addNode, .addNode, .addNode, .addEdge 0 1, .addEdge 0 2, .removeEdge 0 1]
      (fun g os => os[5]? == some (.flag true) && outD g 0 == 1 && inD g 1 == 0 && inD g 2 == 1) = true := by
  decide +kernel

/-- Remove all nodes from graph. tests/unit/DirectedGraphTests.cpp:189-201. -/
theorem graphRemoveAll :
    afterOps [.addNode, .addNode, .addNode, .addEdge 0 1, .addEdge 1 2, .removeNode 0, .removeNode 1, .removeNode 2]
      (fun g os => os.drop 5 == [.flag true, .flag true, .flag true] && g.nodes.length == 0 && g.numEdges == 0)
      = true := by
  decide +kernel

/-- Get edges to a node. tests/unit/DirectedGraphTests.cpp:203-219. -/
theorem graphEdgesTo :
    afterOps [.addNode, .addNode, .addNode, .addEdge 0 2, .addEdge 1 2]
      (fun g _ => (g.getEdgesTo 0 2).length == 1 && (g.getEdgesTo 1 2).length == 1 && (g.getEdgesTo 2 0).isEmpty)
      = true := by
  decide +kernel

/-- Graph with no edges. tests/unit/DirectedGraphTests.cpp:221-231. -/
theorem graphNoEdges :
    afterOps (List.replicate 5 .addNode)
      (fun g _ => g.nodes.length == 5 && g.nodes.all (fun n => inD g n == 0 && outD g n == 0) && g.numEdges == 0)
      = true := by
  decide +kernel

/-- Self-loop removal. tests/unit/DirectedGraphTests.cpp:233-240. -/
theorem graphSelfLoopRemoval :
    afterOps [.addNode, .addEdge 0 0, .removeEdge 0 0]
      (fun g os => os[2]? == some (.flag true) && inD g 0 == 0 && outD g 0 == 0) = true := by
  decide +kernel

/-- addEdge after addNewEdge returns the first edge. tests/unit/DirectedGraphTests.cpp:245-257. -/
theorem graphNewThenAdd :
    afterOps [.addNode, .addNode, .addNewEdge 0 1, .addNewEdge 0 1, .addEdge 0 1]
      (fun g os => os[4]? == os[2]? && os[4]? != os[3]? && outD g 0 == 2 && inD g 1 == 2) = true := by
  decide +kernel

/-- addNewEdge after addEdge keeps index on the original. tests/unit/DirectedGraphTests.cpp:261-274. -/
theorem graphAddThenNew :
    afterOps [.addNode, .addNode, .addEdge 0 1, .addNewEdge 0 1, .addEdge 0 1]
      (fun g os => os[2]? != os[3]? && os[4]? == os[2]? && outD g 0 == 2) = true := by
  decide +kernel

/-- removeEdge re-points index when a parallel edge survives. tests/unit/DirectedGraphTests.cpp:279-294. -/
theorem graphRepoint :
    afterOps [.addNode, .addNode, .addEdge 0 1, .addNewEdge 0 1, .removeEdge 0 1, .addEdge 0 1]
      (fun g os => os[4]? == some (.flag true) && os[5]? == os[3]? && outD g 0 == 1) = true := by
  decide +kernel

/-- removeEdge drops index entry when last edge to target removed. tests/unit/DirectedGraphTests.cpp:302-317. -/
theorem graphDropEntry :
    (afterOps [.addNode, .addNode, .addEdge 0 1, .removeEdge 0 1]
      (fun g os => os[3]? == some (.flag true) && outD g 0 == 0 && inD g 1 == 0)
    && afterOps [.addNode, .addNode, .addEdge 0 1, .removeEdge 0 1, .addEdge 0 1]
      (fun g _ => outD g 0 == 1 && inD g 1 == 1)
    && afterOps [.addNode, .addNode, .addEdge 0 1, .removeEdge 0 1, .addEdge 0 1, .addEdge 0 1]
      (fun g _ => outD g 0 == 1)) = true := by
  decide +kernel

/-- clearAllEdges resets the dedup index. tests/unit/DirectedGraphTests.cpp:321-340. -/
theorem graphClearIndex :
    (afterOps [.addNode, .addNode, .addNode, .addEdge 0 1, .addEdge 0 2, .clearAllEdges 0, .addEdge 0 1]
      (fun g _ => outD g 0 == 1 && inD g 1 == 1 && inD g 2 == 0)
    && afterOps [.addNode, .addNode, .addNode, .addEdge 0 1, .addEdge 0 2, .clearAllEdges 0, .addEdge 0 1, .addEdge 0 1]
      (fun g _ => outD g 0 == 1)) = true := by
  decide +kernel

/-- High fan-out addEdge stays linear: with 40 targets instead of 20000, still past the size at which the index
is built. tests/unit/DirectedGraphTests.cpp:346-364. -/
theorem graphFanOut :
    afterOps (List.replicate 41 .addNode ++ (List.range 40).map (fun i => .addEdge 0 (i + 1))
        ++ (List.range 40).map (fun i => .addEdge 0 (i + 1)))
      (fun g _ => outD g 0 == 40) = true := by
  decide +kernel

/-- A graph of `n` nodes with some edges. -/
def digraph (n : Nat) (es : List (Nat × Nat)) : NetGraph :=
  (NetGraph.calls {} (List.replicate n (.addNode .merge) ++ es.map fun e => .addEdge e.1 e.2)).getD {}

/-- The cycle detector. tests/unit/CycleDetectorTests.cpp:27-42, 44-65, 67-99, 101-135. -/
theorem cyclesNone : detectCycles (digraph 3 [(0, 1), (1, 2)]) (fun _ => true) = [] := by decide +kernel
theorem cyclesSingle :
    (detectCycles (digraph 2 [(0, 1), (1, 0)]) fun _ => true) = [[0, 1]] := by decide +kernel
theorem cyclesMultiple :
    (detectCycles (digraph 4 [(0, 1), (1, 0), (2, 3), (3, 2)]) fun _ => true)
      = [[0, 1], [2, 3]] := by decide +kernel
theorem cyclesInterconnected :
    (detectCycles (digraph 4 [(0, 1), (1, 2), (2, 0), (2, 3), (3, 2)]) fun _ => true)
      = [[0, 1, 2], [2, 3]] := by decide +kernel

/-- The nodes and the number of edges a search visits. -/
def visits (G : Adj Edge) (n start : Nat) : List Nat × Nat :=
  let evs := dfsEvents G (List.range n) start
  (evs.filterMap fun | .visitNode m => some m | _ => none,
   (evs.filter fun | .visitEdge _ => true | _ => false).length)

/-- DFS visits all nodes in a ring, starting from each node. tests/unit/DepthFirstSearchTests.cpp:45-67. -/
theorem dfsRing :
    ((List.range 5).all fun s =>
      let v := visits (fwdAdj (digraph 5 [(0, 1), (1, 2), (2, 3), (3, 4), (4, 0)]) fun _ => true) 5 s
      v.1.length == 5 && v.2 == 4 && v.1.eraseDups.length == 5) = true := by
  decide +kernel

/-- DFS visits all nodes in a tree, order is pre-order. tests/unit/DepthFirstSearchTests.cpp:69-95. -/
theorem dfsTree :
    visits (fwdAdj (digraph 7 [(0, 1), (0, 2), (1, 3), (1, 4), (2, 5), (2, 6)]) fun _ => true) 7 0
      = ([0, 1, 3, 4, 2, 5, 6], 6) := by
  decide +kernel

/-- DFS with edge predicate skips odd nodes. tests/unit/DepthFirstSearchTests.cpp:97-118. -/
theorem dfsPredicate :
    visits (fwdAdj (digraph 5 [(0, 1), (0, 2), (0, 3), (0, 4)]) fun e => e.tgt % 2 == 0) 5 0 = ([0, 2, 4], 2) := by
  decide +kernel

/-- Single node; disconnected graph; cycles. tests/unit/DepthFirstSearchTests.cpp:120-128, 130-148, 150-164. -/
theorem dfsSingle : visits (fwdAdj (digraph 1 []) fun _ => true) 1 0 = ([0], 0) := by decide +kernel
theorem dfsDisconnected : (visits (fwdAdj (digraph 4 [(0, 1)]) fun _ => true) 4 0).1 = [0, 1] := by decide +kernel
theorem dfsCycle :
    (visits (fwdAdj (digraph 3 [(0, 1), (1, 2), (2, 0)]) fun _ => true) 3 0).1 = [0, 1, 2] := by decide +kernel

/-- Backward DFS. tests/unit/DepthFirstSearchTests.cpp:166-187, 189-211, 213-235. -/
theorem dfsBackChain :
    (visits (bwdAdj (digraph 4 [(0, 1), (1, 2), (2, 3)]) fun _ => true) 4 3).1 = [3, 2, 1, 0] := by decide +kernel
theorem dfsBackReachable :
    (visits (bwdAdj (digraph 4 [(0, 1), (2, 1)]) fun _ => true) 4 1).1 = [1, 0, 2] := by decide +kernel
theorem dfsBackPredicate :
    (visits (bwdAdj (digraph 3 [(0, 1), (1, 2)]) fun e => e.src % 2 == 0) 3 2).1 = [2] := by decide +kernel

/-- What calls on two managers return. -/
def extOuts (ops : List (ExtOp (List Nat))) : Option (List (ExtOut (List Nat))) :=
  (ExtPair.calls {} ops).map Prod.snd

/-- Allocate and get; erase and valid; reuse freed handle.
tests/unit/ExternalManagerTests.cpp:4-21, 23-36, 38-53. -/
theorem extAllocate :
    ((extOuts [.alloc false [42, 42, 42], .alloc false [7, 7], .get false 0, .get false 1]).map fun os => os.drop 2)
      = some [.value [42, 42, 42], .value [7, 7]] := by decide +kernel
theorem extErase :
    ((extOuts [.alloc false [42, 42, 42], .alloc false [7, 7], .valid false 0, .valid false 1, .erase false 0,
      .valid false 0, .valid false 1]).map fun os => os.drop 2)
      = some [.flag true, .flag true, .unit, .flag false, .flag true] := by decide +kernel
theorem extReuse :
    extOuts [.alloc false [42, 42, 42], .erase false 0, .alloc false [7, 7], .get false 0]
      = some [.handle 0, .unit, .handle 0, .value [7, 7]] := by decide +kernel

/-- Clone; deep copy assignment. tests/unit/ExternalManagerTests.cpp:55-77, 79-102. -/
theorem extCopy :
    ((extOuts [.alloc false [42, 42, 42], .alloc false [7, 7], .copy true, .valid true 0, .valid true 1, .get true 0,
      .get true 1]).map fun os => os.drop 3)
      = some [.flag true, .flag true, .value [42, 42, 42], .value [7, 7]] := by decide +kernel

/-- An interval map from its entries. -/
def imOf (l : List (Int × Int)) : List (Ivl Nat) := l.foldl (fun m e => imInsert e.1 e.2 0 m) []

/-- The bounds left by a difference. -/
def diff (l r : List (Int × Int)) : Option (List (Int × Int)) :=
  match imDifference (imOf l) (imOf r) with
  | .ok m => some (m.map fun e => (e.lo, e.hi))
  | .error _ => none

/-- IntervalMap: difference. tests/unit/IntervalMapTests.cpp:5-33, 35-56, 58-79. -/
theorem ivlDifference :
    diff [(0, 2), (5, 10), (13, 23), (24, 25)] [(1, 5), (8, 12), (15, 18), (20, 24)]
      = some [(0, 0), (6, 7), (13, 14), (19, 19), (25, 25)] := by decide +kernel
theorem ivlDifferenceAtStart : diff [(0, 7)] [(0, 3)] = some [(4, 7)] := by decide +kernel
theorem ivlDifferenceEmpty : diff [(0, 2), (5, 10)] [] = some [(0, 2), (5, 10)] := by decide +kernel

/-- A driver map after a list was added, and its handle. -/
def withList (m : DMap) (ds : List DriverInfo) (f : DMap → Nat → Bool) : Bool :=
  match m.addList ds with
  | .ok (m', h) => f m' h
  | .error _ => false

/-- The number of drivers of a list. -/
def listSize (m : DMap) (h : Nat) : Option Nat :=
  match m.getList h with
  | .ok l => some l.length
  | .error _ => none

/-- DriverMap empty; allocate and retrieve driver list; add driver list with contents.
tests/unit/DriverMapTests.cpp:10-13, 15-20, 22-31. -/
theorem dmapEmpty : ({} : DMap).ivls = [] := by decide +kernel
theorem dmapAllocate : withList {} [] (fun m h => m.lists.valid h && listSize m h == some 0) = true := by
  decide +kernel
theorem dmapContents :
    withList {} (dlInsertAll [] [⟨some 1, 0⟩, ⟨some 2, 0⟩]) (fun m h => m.lists.valid h && listSize m h == some 2)
      = true := by
  decide +kernel

/-- DriverMap insert interval and find; multiple non-overlapping intervals.
tests/unit/DriverMapTests.cpp:33-44, 46-60. -/
theorem dmapInsert :
    withList {} [] (fun m h => let m' := m.insert 0 7 h; !m'.ivls.isEmpty && !(imFind m'.ivls 0 7).isEmpty)
      = true := by
  decide +kernel
theorem dmapInsertTwo :
    withList {} [] (fun m h1 => withList m [] fun m h2 =>
      let m' := (m.insert 0 3 h1).insert 4 7 h2
      !(imFind m'.ivls 0 3).isEmpty && !(imFind m'.ivls 4 7).isEmpty) = true := by
  decide +kernel

/-- DriverMap erase handle; erase interval. tests/unit/DriverMapTests.cpp:62-68, 70-82. -/
theorem dmapEraseHandle :
    withList {} [] (fun m h => m.lists.valid h &&
      match m.freeIfValid h with | .ok m' => !m'.lists.valid h | .error _ => false) = true := by
  decide +kernel
theorem dmapEraseInterval :
    withList {} [] (fun m h => let m' := m.insert 0 7 h
      !m'.ivls.isEmpty && match imFind m'.ivls 0 7 with
        | e :: _ => (m'.eraseAt e).ivls.isEmpty
        | [] => false) = true := by
  decide +kernel

/-- DriverMap clone preserves content; is independent. tests/unit/DriverMapTests.cpp:84-102, 104-119. -/
theorem dmapClone :
    withList {} [⟨some 1, 0⟩] (fun m h => let m' := m.insert 0 3 h
      let c : DMap := ⟨m'.ivls, m'.lists.copyFrom⟩
      !c.ivls.isEmpty && match imFind c.ivls 0 3 with
        | e :: _ => listSize c e.val == some 1 && (m'.eraseAt e).ivls.isEmpty
        | [] => false) = true := by
  decide +kernel

/-- VariableTracker: insert and lookup by bounds, with wrong bounds, of all nodes.
tests/unit/VariableTrackerTests.cpp:14-33, 35-54, 56-78. -/
theorem varLookup :
    (let t := VarTab.run (fun _ => []) [(0, ⟨0, 7⟩, 5)]
     t.lookup 0 ⟨0, 7⟩ == some 5 && t.lookup 0 ⟨0, 3⟩ == none && t.lookup 0 ⟨8, 15⟩ == none) = true := by
  decide +kernel
theorem varLookupAll :
    ((VarTab.run (fun _ => []) [(0, ⟨3, 0⟩, 5), (0, ⟨7, 4⟩, 6)]).lookupAll 0).length = 2 := by decide +kernel

/-- VariableTracker: non-existent symbol; multiple symbols are independent.
tests/unit/VariableTrackerTests.cpp:80-101, 103-128. -/
theorem varSymbols :
    (let t := VarTab.run (fun _ => []) [(0, ⟨0, 0⟩, 5)]
     let u := VarTab.run (fun _ => []) [(0, ⟨0, 0⟩, 5), (1, ⟨0, 0⟩, 6)]
     t.lookup 1 ⟨0, 0⟩ == none && (t.lookupAll 1).isEmpty
      && u.lookup 0 ⟨0, 0⟩ == some 5 && u.lookup 1 ⟨0, 0⟩ == some 6) = true := by
  decide +kernel

/-- One thread adding a file: it runs until the call has returned. -/
def addFile (s : ITab Str) (f : Str) : Nat → Option (ITab Str)
  | 0 => none
  | k + 1 =>
    match s.step fileCfg 0 f with
    | none => none
    | some s' => if s'.log.length > s.log.length then some s' else addFile s' f k

/-- FileTable deduplicates filenames. tests/unit/TextLocationTests.cpp:21-31. -/
theorem fileTableDeduplicates :
    (match (addFile {} (chs "foo.sv") 9).bind (addFile · (chs "bar.sv") 9) |>.bind (addFile · (chs "foo.sv") 9) with
     | some s => s.log.map Prod.snd == [0, 1, 0] && s.entries.length == 2
        && getFilename s 0 == some (chs "foo.sv") && getFilename s 1 == some (chs "bar.sv")
     | none => false) = true := by
  decide +kernel

/-- TextLocation with FileTable; default is empty. tests/unit/TextLocationTests.cpp:6-12, 14-19. -/
theorem locationText :
    locText [chs "test.sv"] ⟨0, 10, 5⟩ = .ok (chs "test.sv:10:5") ∧ locText [] {} = .ok (chs "?") := by
  constructor
  · simp [locText, decNat, noFile, lit]
  · simp [locText, lit]

/-- What a list of slices looks like: bounds, and the kinds of sources. -/
inductive SrcKind where
  | lsp | padding (signExt : Bool) | opaque | port | const (zeros : Bool) (w : Nat)
deriving DecidableEq

def srcKind : Src → SrcKind
  | .lsp .. => .lsp
  | .padding s => .padding s
  | .opaque _ => .opaque
  | .portNode .. => .port
  | .const v _ _ => .const (v.all (· = .zero)) v.length

def shape (l : List Slice) : List (Nat × Nat × List SrcKind) :=
  l.map fun s => (s.lo, s.hi, s.sources.map srcKind)

def noCuts : CutReg := fun _ => none

/-- BitSliceList: single named value; arithmetic expression. tests/unit/BitSliceTests.cpp:45-54, 56-64. -/
theorem slicesNamed : shape (Model.build true noCuts (sl 0 3)) = [(0, 4, [.lsp])] := by decide +kernel
theorem slicesArithmetic : shape (Model.build true noCuts (op 4 [pth 0 3, pth 1 3])) = [(0, 4, [.opaque])] := by
  decide +kernel

/-- BitSliceList: concatenation is MSB-first and linear; nested concat flattens; opaque and structural.
tests/unit/BitSliceTests.cpp:66-83, 85-95, 97-112. -/
theorem slicesConcat :
    (shape (Model.build true noCuts (.concat 4 [sl 0 1, sl 1 1])) = [(0, 2, [.lsp]), (2, 4, [.lsp])])
    ∧ (Model.build true noCuts (.concat 4 [sl 0 1, sl 1 1])).map (fun s => s.sources.map fun
        | .lsp p _ _ => p.root | _ => none) = [[some 1], [some 0]] := by
  decide +kernel
theorem slicesNested :
    shape (Model.build true noCuts (.concat 3 [sl 0, .concat 2 [sl 1, sl 2]]))
      = [(0, 1, [.lsp]), (1, 2, [.lsp]), (2, 3, [.lsp])] := by decide +kernel
theorem slicesMixed :
    shape (Model.build true noCuts (.concat 4 [sl 0 1, op 2 [pth 0 1, pth 1 1]]))
      = [(0, 2, [.opaque]), (2, 4, [.lsp])] := by decide +kernel

/-- BitSliceList: replication; zero-count replication. tests/unit/BitSliceTests.cpp:114-124, 126-138, 271-282. -/
theorem slicesReplication :
    shape (Model.build true noCuts (.repl 4 (some 4) (.concat 1 [sl 0])))
      = [(0, 1, [.lsp]), (1, 2, [.lsp]), (2, 3, [.lsp]), (3, 4, [.lsp])]
    ∧ shape (Model.build true noCuts (.repl 4 (some 2) (.concat 2 [sl 0 1]))) = [(0, 2, [.lsp]), (2, 4, [.lsp])]
    ∧ shape (Model.build true noCuts (.concat 2 [sl 0, .repl 0 (some 0) (.concat 1 [sl 2]), sl 1]))
      = [(0, 1, [.lsp]), (1, 2, [.lsp])] := by
  decide +kernel

/-- BitSliceList: conversions. tests/unit/BitSliceTests.cpp:140-148, 150-166, 168-177. -/
theorem slicesConversion :
    shape (Model.build true noCuts (.conv 4 false none (sl 0 3))) = [(0, 4, [.lsp])]
    ∧ shape (Model.build true noCuts (.conv 8 false none (sl 0 3))) = [(0, 4, [.lsp]), (4, 8, [.const true 4])]
    ∧ shape (Model.build true noCuts (.conv 8 true none (sl 0 3))) = [(0, 4, [.lsp]), (4, 8, [.padding true])] := by
  decide +kernel

/-- BitSliceList: conditional operator. tests/unit/BitSliceTests.cpp:179-204, 206-227. -/
theorem slicesConditional :
    (let l := shape (Model.build true noCuts (.condOp 2 1 false [] (sl 0) (.concat 2 [sl 3, sl 4])
        (.condOp 2 1 false [] (op 1 [pth 5]) (sl 1 1) (sl 2 1))))
     l.map (fun s => s.2.1) == [1, 2] && l.all fun s => 2 ≤ s.2.2.length && 1 ≤ s.2.2.count .opaque) = true := by
  decide +kernel
theorem slicesConditionalAligned :
    (let l := shape (Model.build true noCuts (.condOp 4 1 false [] (sl 0) (sl 1 3) (sl 2 3)))
     l.map (fun s => (s.1, s.2.1, s.2.2.length, s.2.2.count .lsp, s.2.2.count .opaque)) == [(0, 4, 3, 2, 1)])
      = true := by
  decide +kernel

/-- alignSegments. tests/unit/BitSliceTests.cpp:229-245, 247-257. -/
theorem slicesAlign :
    (alignSegments (Model.build true noCuts (.concat 4 [sl 0 1, sl 1 1])) (Model.build true noCuts (.concat 4 [sl 2 1, sl 3 1]))).map
      (List.map fun s => (s.lo, s.hi, s.lhs.map srcKind, s.rhs.map srcKind))
      = some [(0, 2, [.lsp], [.lsp]), (2, 4, [.lsp], [.lsp])]
    ∧ (alignSegments (Model.build true noCuts (sl 0 3)) (Model.build true noCuts (.concat 4 [sl 1 1, sl 2 1]))).map
      (List.map fun s => (s.lo, s.hi)) = some [(0, 2), (2, 4)] := by
  decide +kernel

/-- BitSliceList: disabled flag yields single opaque slice. tests/unit/BitSliceTests.cpp:259-269. -/
theorem slicesDisabled :
    shape (Model.build false noCuts (.concat 8 [sl 0 3, sl 1 3])) = [(0, 8, [.opaque])] := by decide +kernel

/-- The netlist of a design, saved and loaded again; constants are read back as printed. -/
def again (net : NetGraph) (files : List Str) : Option LoadSt :=
  match load ⟨some, []⟩ (save net files) with
  | .ok st => some st
  | .error _ => none

/-- The edge kinds in the order of the nodes and their edges. -/
def kindsOf (net : NetGraph) : List EdgeKind :=
  net.g.nodes.flatMap fun n => (net.g.obj n).outE.map fun e => (net.attr e.id).edgeKind

/-- Does the netlist pass the checks before and after being saved and loaded, and do the numbers of nodes and
edges, what the nodes hold and the kinds of edges agree? -/
def roundTrips (d : Design') (cs : List Chk) : Bool :=
  match buildBoxed d with
  | .error _ => false
  | .ok net =>
    match again net [chs "f"] with
    | none => false
    | some st => cs.all (Chk.eval net) && cs.all (Chk.eval st.net)
        && st.net.g.nodes.length == net.g.nodes.length && st.net.g.numEdges == net.g.numEdges
        && st.net.g.nodes.map st.net.data == net.g.nodes.map net.data && kindsOf st.net == kindsOf net
        && st.files == [chs "f"]

/-- Positions in the file for the signals. -/
def located (D : Design) : Design := { D with ref := fun n => { D.ref n with loc := ⟨0, 2, n⟩ } }

/-- `assign b = a`, with bits of `b` and `a`. -/
def passThrough (w v : Nat) : Design' :=
  { sigs := [⟨chs "a", w, true, chs "m.a"⟩, ⟨chs "b", v, true, chs "m.b"⟩], design := located
    tree := top [inp 0 w, outp 1 v, blk 0], blocks := [cont (sl 1 (v - 1)) (sl 0 (v - 1))] }

/-- Round-trip preserves node and edge counts, the file table, locations of nodes, port direction and bounds; path
finding works on the deserialised graph.
tests/unit/SerializerTests.cpp:25-35, 37-51, 53-74, 114-130, 198-218. -/
theorem serialPassThrough :
    (roundTrips (passThrough 1 1) [.path (chs "m.a") (chs "m.b") true, .nodes 3]
      && roundTrips (passThrough 8 4) [.ports (chs "m.a") .input 8, .ports (chs "m.b") .output 4]) = true := by
  decide +kernel

/-- Round-trip preserves TextLocation on edge symbols. tests/unit/SerializerTests.cpp:76-112. -/
theorem serialEdgeSymbols :
    (match buildBoxed (passThrough 1 1) with
     | .error _ => false
     | .ok net => match again net [chs "f"] with
       | none => false
       | some st =>
         let locs := fun n : NetGraph => (n.g.nodes.flatMap fun x => (n.g.obj x).outE.filterMap fun e =>
           (n.attr e.id).symbol.map fun s => (s.path, s.loc))
         locs net == locs st.net && (locs net).any fun l => l == (chs "m.a", ⟨0, 2, 0⟩)) = true := by
  decide +kernel

/-- Comb loop detection works on deserialised graph. tests/unit/SerializerTests.cpp:132-150. -/
theorem serialLoop :
    roundTrips
      { sigs := [⟨chs "a", 1, false, chs "m.a"⟩, ⟨chs "b", 1, false, chs "m.b"⟩, ⟨chs "x", 1, true, chs "m.t.x"⟩,
          ⟨chs "y", 1, true, chs "m.t.y"⟩]
        tree := top [.inst false (chs "t") (chs "m.t") [inp 2, outp 3, blk 0]
          [⟨.port 102 (some 2), some (sl 0), false, true⟩, ⟨.port 103 (some 3), some (sl 1), true, true⟩], blk 1]
        blocks := [cont (sl 3) (sl 2), cont (sl 0) (sl 1)] } [.loops 1] = true := by
  decide +kernel

/-- A register with a list of edges. -/
def register (es : List (EdgeKind × Nat)) : Design' :=
  { sigs := [⟨chs "clk", 1, true, chs "m.clk"⟩, ⟨chs "rst", 1, true, chs "m.rst"⟩, ⟨chs "a", 1, true, chs "m.a"⟩,
      ⟨chs "b", 1, true, chs "m.b"⟩]
    tree := top [inp 0, inp 1, inp 2, outp 3, blk 0]
    blocks := [.procedural .always (.timed (.eventList (es.map fun e => some ⟨e.1, some e.2⟩))) (nba (sl 3) (sl 2))] }

/-- Round-trip preserves edge attributes, the NegEdge kind, also on an event list.
tests/unit/SerializerTests.cpp:152-178, 345-373, 539-563. -/
theorem serialEdgeKinds :
    (roundTrips (register [(.posEdge, 0)]) [.someClock (chs "m.b") .posEdge]
      && roundTrips (register [(.negEdge, 0)]) [.someClock (chs "m.b") .negEdge]
      && roundTrips (register [(.posEdge, 0), (.negEdge, 1)])
        [.someClock (chs "m.b") .posEdge, .someClock (chs "m.b") .negEdge]) = true := by
  decide +kernel

/-- Empty graph round-trip. tests/unit/SerializerTests.cpp:180-188. -/
theorem serialEmpty :
    (match again {} [] with
     | some st => st.net.g.nodes.length == 0 && st.net.g.numEdges == 0 && st.files.length == 0
     | none => false) = true := by
  decide +kernel

/-- Version mismatch throws error; absent blackBoxes field; an edge referencing an unknown node (a document of
version 1, so its version already is an error; with version 3 it is the node).
tests/unit/SerializerTests.cpp:190-196, 417-423, 430-442. -/
def document (version : Int) (edges : List Json) : Json :=
  .obj [("version", .int version), ("fileTable", .arr []), ("nodes", .arr []), ("edges", .arr edges)]
def strayEdge : Json :=
  .obj [("source", .int 999), ("target", .int 888), ("edgeKind", .str (chs "None")),
    ("symbol", .obj [("name", .str []), ("path", .str []),
      ("location", .obj [("fileIndex", .int 0), ("line", .int 0), ("column", .int 0)])]),
    ("bounds", .arr [.int 0, .int 0]), ("disabled", .bool false)]
theorem serialDocuments :
    (match load ⟨some, []⟩ (document 99 []), load ⟨some, []⟩ (document 3 []), load ⟨some, []⟩ (document 1 [strayEdge]),
        load ⟨some, []⟩ (document 3 [strayEdge]) with
     | .error .version, .ok st, .error .version, .error .unknownNode => st.net.blackBoxes.isEmpty
     | _, _, _, _ => false) = true := by
  decide +kernel

/-- Round-trip preserves Conditional and Merge nodes. tests/unit/SerializerTests.cpp:220-239. -/
theorem serialConditional :
    roundTrips
      { sigs := [⟨chs "a", 1, true, chs "m.a"⟩, ⟨chs "c", 1, true, chs "m.c"⟩, ⟨chs "b", 1, true, chs "m.b"⟩]
        tree := top [inp 0, inp 1, outp 2, blk 0]
        blocks := [comb (ite (sl 1) (ba (sl 2) (sl 0)) (ba (sl 2) (k1 .zero)))] }
      [.kinds .conditional 1, .kinds .merge 1] = true := by
  decide +kernel

/-- Round-trip preserves Case nodes. tests/unit/SerializerTests.cpp:241-258. -/
theorem serialCase :
    roundTrips
      { sigs := [⟨chs "sel", 2, true, chs "m.sel"⟩, ⟨chs "a", 1, true, chs "m.a"⟩, ⟨chs "b", 1, true, chs "m.b"⟩]
        tree := top [inp 0 2, inp 1, outp 2, blk 0]
        blocks := [comb (.cond true {} [sl 0 1] (.choose true (ba (sl 2) (sl 1))
          (.choose true (ba (sl 2) (k1 .zero)) (ba (sl 2) (k1 .one)))))] }
      [.kinds .case 1] = true := by
  decide +kernel

/-- Round-trip preserves State nodes. tests/unit/SerializerTests.cpp:260-278. -/
theorem serialState :
    roundTrips
      { sigs := [⟨chs "clk", 1, true, chs "m.clk"⟩, ⟨chs "d", 1, true, chs "m.d"⟩, ⟨chs "q", 1, true, chs "m.q"⟩,
          ⟨chs "r", 1, false, chs "m.r"⟩]
        tree := top [inp 0, inp 1, outp 2, blk 0, blk 1]
        blocks := [ff (nba (sl 3) (sl 1)) [0], cont (sl 2) (sl 3)] }
      [.kinds .state 1, .someClock (chs "m.r") .posEdge] = true := by
  decide +kernel

/-- Round-trip preserves disabled edges: the first edge of the first node. tests/unit/SerializerTests.cpp:311-343. -/
theorem serialDisabled :
    (match build (passThrough 8 8) with
     | .error _ => false
     | .ok net => match net.g.nodes.flatMap fun n => (net.g.obj n).outE with
       | [] => false
       | e :: _ =>
         let net' := { net with attr := fun x => if x = e.id then { net.attr x with disabled := true } else net.attr x }
         match again net' [chs "f"] with
         | none => false
         | some st => (st.net.g.nodes.flatMap fun n => (st.net.g.obj n).outE.filter fun e =>
             (st.net.attr e.id).disabled).length == 1) = true := by
  decide +kernel

/-- Round-trip preserves InOut port direction. tests/unit/SerializerTests.cpp:375-391. -/
theorem serialInOut :
    roundTrips
      { sigs := [⟨chs "a", 1, true, chs "m.a"⟩]
        tree := top [.port ⟨100, some 0, .inout, [⟨0, 0, true⟩]⟩], blocks := [] }
      [.ports (chs "m.a") .inout 1] = true := by
  decide +kernel

/-- A black box. -/
def boxed : Design' :=
      { sigs := [⟨chs "a", 1, true, chs "top.a"⟩, ⟨chs "c", 1, true, chs "top.c"⟩, ⟨chs "x", 1, true, chs "top.u_foo.x"⟩,
          ⟨chs "z", 1, true, chs "top.u_foo.z"⟩]
        opts := { boxes := [chs "foo"] }
        tree := [.inst false (chs "top") (chs "top") [inp 0, outp 1,
          .inst false (chs "foo") (chs "top.u_foo") [inp 2, outp 3, blk 0]
            [⟨.port 102 (some 2), some (sl 0), false, true⟩, ⟨.port 103 (some 3), some (sl 1), true, true⟩]] []]
        blocks := [cont (sl 3) (sl 2)] }

/-- Round-trip preserves black-box paths and coverage; what the nodes hold and the paths agree, and coverage is a
function of these. tests/unit/SerializerTests.cpp:393-415. -/
theorem serialBoxes :
    (roundTrips boxed [.boxes [chs "top.u_foo"]]
      && meets boxed [.cover (chs "top.u_foo.x") .boundary, .cover (chs "top.a") .outside]) = true := by
  decide +kernel

/-- Round-trip preserves Variable nodes (interface). tests/unit/SerializerTests.cpp:280-309. -/
theorem serialVariable :
    roundTrips
      { sigs := [⟨chs "val", 1, false, chs "top.i.val"⟩, ⟨chs "val", 1, false, chs "top.prod.p.val"⟩]
        design := fun D => { D with
          kind := fun n => if n = 1 then .modportPort else .other
          iface := fun n _ => if n = 1 then [(0, ⟨0, 0⟩)] else [] }
        tree := [.inst false (chs "top") (chs "top") [
          .inst false (chs "ifc") (chs "top.i") [.variable 0 true [(0, 0)]] [],
          .inst false (chs "producer") (chs "top.prod") [blk 0] [⟨.interface, none, false, true⟩],
          .inst false (chs "consumer") (chs "top.cons") [] [⟨.interface, none, false, true⟩]] []]
        blocks := [cont (sl 1) (k1 .one)] }
      [.kinds .variable 1] = true := by
  decide +kernel

/-- Round-trip preserves Ref port direction. tests/unit/SerializerTests.cpp:513-537. -/
theorem serialRef :
    roundTrips
      { sigs := [⟨chs "y", 1, false, chs "m.y"⟩, ⟨chs "x", 1, true, chs "m.u.x"⟩]
        tree := top [.inst false (chs "inner") (chs "m.u") [.port ⟨101, some 1, .ref, [⟨0, 0, false⟩]⟩, blk 0]
          [⟨.port 101 (some 1), some (sl 0), false, true⟩]]
        blocks := [cont (sl 1) (kInt .one)] }
      [.ports (chs "m.u.x") .ref 1] = true := by
  decide +kernel

end Verif.Conform.Units

/-!
Model of `source/DepthFirstSearch.hpp`.

The traversal is modelled as a small-step machine. A state holds the set of visited nodes, the
visit stack (node, edges not yet examined) and the sequence of visitor callbacks issued so far.
The C++ template parameters become a structure `Adj`: the ordered edge list examined at a node,
the edge predicate, and the node at the far end of an edge (forward or backward).
-/
namespace Verif.Model

/-- Template parameters of `DepthFirstSearch` (source/DepthFirstSearch.hpp:23-25, 45-71):
`edges n` is the edge sequence from `edgeBegin` to `edgeEnd`, `ok` is `edgePredicate`, `next` is
`nextNode`. Nodes are identified by addresses (`Nat`). -/
structure Adj (ε : Type) where
  edges : Nat → List ε
  ok : ε → Bool
  next : ε → Nat

/-- Visitor callbacks (source/DepthFirstSearch.hpp:77, 97, 103, 104, 111). -/
inductive Ev (ε : Type) where
  | visitNode (n : Nat)
  | visitedNode (n : Nat)
  | visitEdge (e : ε)
  | popNode
deriving DecidableEq, Repr

/-- Traversal state (source/DepthFirstSearch.hpp:115-118). `visited` lists the members of
`visitedNodes` newest first; `stack` has its top at the head and stores the edges still to be
examined instead of an iterator; `log` is the callback sequence, newest first. -/
structure DfsState (ε : Type) where
  visited : List Nat
  stack : List (Nat × List ε)
  log : List (Ev ε)

/-- `setup` (source/DepthFirstSearch.hpp:74-78). -/
def dfsInit {ε : Type} (G : Adj ε) (start : Nat) : DfsState ε :=
  { visited := [start], stack := [(start, G.edges start)], log := [.visitNode start] }

/-- One iteration of the loops in `run` (source/DepthFirstSearch.hpp:81-113): examine one edge of
the top node, or pop it when no edges are left. An empty stack is final. The C++ `return run()`
re-enters the same loop, so it is the same step. -/
def dfsStep {ε : Type} (G : Adj ε) (s : DfsState ε) : DfsState ε :=
  match s.stack with
  | [] => s
  | (_, []) :: rest => { s with stack := rest, log := .popNode :: s.log }
  | (n, e :: es) :: rest =>
    if !G.ok e then
      { s with stack := (n, es) :: rest }
    else if G.next e ∈ s.visited then
      { s with stack := (n, es) :: rest, log := .visitedNode (G.next e) :: s.log }
    else
      { visited := G.next e :: s.visited,
        stack := (G.next e, G.edges (G.next e)) :: (n, es) :: rest,
        log := .visitNode (G.next e) :: .visitEdge e :: s.log }

/-- `k` iterations of the loop (source/DepthFirstSearch.hpp:81-113). -/
def dfsIter {ε : Type} (G : Adj ε) : Nat → DfsState ε → DfsState ε
  | 0, s => s
  | k + 1, s => dfsIter G k (dfsStep G s)

/-- Number of iterations that suffices on a graph whose nodes are `univ`: one per edge plus one
per node. This bound on the loop at source/DepthFirstSearch.hpp:81-113 is not in the C++ code; `dfs_terminates` proves that the loop has ended by
then. -/
def dfsFuel {ε : Type} (G : Adj ε) (univ : List Nat) : Nat :=
  (univ.map fun n => (G.edges n).length + 1).sum

/-- The complete traversal performed by the constructor
(source/DepthFirstSearch.hpp:27-37). -/
def dfsRun {ε : Type} (G : Adj ε) (univ : List Nat) (start : Nat) : DfsState ε :=
  dfsIter G (dfsFuel G univ) (dfsInit G start)

/-- The callbacks issued by a complete traversal, oldest first (source/DepthFirstSearch.hpp:27-37). -/
def dfsEvents {ε : Type} (G : Adj ε) (univ : List Nat) (start : Nat) : List (Ev ε) :=
  (dfsRun G univ start).log.reverse

end Verif.Model

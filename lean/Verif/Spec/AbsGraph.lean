import Verif.Model.DirectedGraph

/-!
Specification of a directed multigraph: a list of live nodes and one global list of edges in
creation order. No per-node lists, no back-pointers, no index. The call and result types are
the API's (`GOp`, `GOut`, `Edge`).
-/
namespace Verif.Spec
open Verif.Model (Edge GOp GOut)

structure AbsGraph where
  nodes : List Nat := []
  edges : List Edge := []
  nextNode : Nat := 0
  nextEdge : Nat := 0

/-- What each call must do and return; `none` when a named node is not in the graph. -/
def AbsGraph.call (A : AbsGraph) : GOp → Option (AbsGraph × GOut)
  | .addNode =>
    some ({ A with nodes := A.nodes ++ [A.nextNode], nextNode := A.nextNode + 1 },
      .node A.nextNode)
  | .addNewEdge s t =>
    if s ∈ A.nodes ∧ t ∈ A.nodes then
      some ({ A with edges := A.edges ++ [⟨A.nextEdge, s, t⟩], nextEdge := A.nextEdge + 1 },
        .edge ⟨A.nextEdge, s, t⟩)
    else none
  | .addEdge s t =>
    if s ∈ A.nodes ∧ t ∈ A.nodes then
      match A.edges.find? (fun e => e.src == s && e.tgt == t) with
      | some e => some (A, .edge e)
      | none =>
        some ({ A with edges := A.edges ++ [⟨A.nextEdge, s, t⟩], nextEdge := A.nextEdge + 1 },
          .edge ⟨A.nextEdge, s, t⟩)
    else none
  | .removeEdge s t =>
    if s ∈ A.nodes ∧ t ∈ A.nodes then
      some ({ A with edges := A.edges.eraseP (fun e => e.src == s && e.tgt == t) },
        .flag (A.edges.any (fun e => e.src == s && e.tgt == t)))
    else none
  | .clearAllEdges n =>
    if n ∈ A.nodes then
      some ({ A with edges := A.edges.filter (fun e => e.src != n && e.tgt != n) }, .unit)
    else none
  | .removeNode n =>
    if n ∈ A.nodes then
      some ({ A with
        nodes := A.nodes.erase n
        edges := A.edges.filter (fun e => e.src != n && e.tgt != n) }, .flag true)
    else some (A, .flag false)

/-- A history of calls. -/
def AbsGraph.calls (A : AbsGraph) : List GOp → Option (AbsGraph × List GOut)
  | [] => some (A, [])
  | op :: ops =>
    match A.call op with
    | none => none
    | some (A', o) =>
      match AbsGraph.calls A' ops with
      | none => none
      | some (A'', os) => some (A'', o :: os)

end Verif.Spec

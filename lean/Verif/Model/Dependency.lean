import Verif.Model.NetGraph

/-!
Annotated dependencies: `NetlistBuilder::addDependency` (source/NetlistBuilder.cpp:69-106) and
`NetlistEdge::setVariable` (include/netlist/NetlistEdge.hpp:41-53).
-/
namespace Verif.Model

/-- `symbol == sym` on pointers (include/netlist/NetlistEdge.hpp:43): interning gives equal paths one
record, so pointers are compared by path. Null equals null. -/
def sameSym (a b : Option SymRef) : Bool := a.map SymRef.path == b.map SymRef.path

/-- `setVariable` (include/netlist/NetlistEdge.hpp:41-53): the new annotations, and whether the call
returned true. -/
def EdgeAttr.setVariable (a : EdgeAttr) (sym : Option SymRef) (b : BitRange) : EdgeAttr × Bool :=
  if a.symbol.isSome && sameSym a.symbol sym then
    if a.bounds.contiguous b then ({ a with bounds := a.bounds.unionWith b }, true)
    else (a, false)
  else ({ a with symbol := sym, bounds := b }, true)

/-- The arguments of an annotated `addDependency` (source/NetlistBuilder.cpp:73-76). -/
structure Dep where
  src : Nat
  tgt : Nat
  sym : Option SymRef
  bounds : BitRange
  kind : EdgeKind := .none
deriving DecidableEq, Repr

/-- The range put on the edge (source/NetlistBuilder.cpp:78-89): the requested range, cut down to the
bounds of the driving node if it has any that overlap. -/
def depBounds (nodeBounds : Option BitRange) (b : BitRange) : BitRange :=
  match nodeBounds with
  | none => b
  | some nb =>
    match b.intersection nb with
    | some r => r
    | none => b

/-- Annotated `addDependency` (source/NetlistBuilder.cpp:73-106). `none` when a node is not in the
graph. -/
def NetGraph.addDependency (net : NetGraph) (d : Dep) : Option NetGraph :=
  let b := depBounds (net.data d.src).bounds d.bounds
  match net.call (.addEdge d.src d.tgt) with
  | none => none
  | some net1 =>
    let e := (net.g.addEdge d.src d.tgt).2.id
    let r := (net1.attr e).setVariable d.sym b
    if r.2 then net1.call (.setAttr e { r.1 with edgeKind := d.kind })
    else
      match net1.call (.addNewEdge d.src d.tgt) with
      | none => none
      | some net2 =>
        let e2 := (net1.g.addNewEdge d.src d.tgt).2.id
        let r2 := (net2.attr e2).setVariable d.sym b
        net2.call (.setAttr e2 { r2.1 with edgeKind := d.kind })

/-- A sequence of annotated dependencies (source/NetlistBuilder.cpp:73-106). -/
def NetGraph.addDependencies (net : NetGraph) : List Dep → Option NetGraph
  | [] => some net
  | d :: ds =>
    match net.addDependency d with
    | none => none
    | some net' => NetGraph.addDependencies net' ds

end Verif.Model

import Verif.Model.DirectedGraph

/-!
Model of the netlist graph data: `include/netlist/NetlistNode.hpp`, `NetlistEdge.hpp`,
`DriverBitRange.hpp`, `SymbolReference.hpp` and the node/edge storage of `NetlistGraph.hpp`.
-/
namespace Verif.Model

/-- Strings (`std::string`, for example include/netlist/NetlistNode.hpp:73-74) are lists of characters. -/
abbrev Str := List Char

/-- `NodeKind` (include/netlist/NetlistNode.hpp:19-29). -/
inductive NodeKind where
  | none | port | variable | assignment | conditional | case | merge | state | constant
deriving DecidableEq, Repr

/-- `ast::ArgumentDirection` as used by include/netlist/NetlistNode.hpp:76. -/
inductive ArgDir where
  | input | output | inout | ref
deriving DecidableEq, Repr

/-- `ast::EdgeKind` as used by include/netlist/NetlistEdge.hpp:20. -/
inductive EdgeKind where
  | none | posEdge | negEdge | bothEdges
deriving DecidableEq, Repr

/-- `DriverBitRange`, i.e. slang's `ConstantRange` with fields `left` and `right`
(include/netlist/DriverBitRange.hpp:14-15). The 32-bit integers are modelled as unbounded
integers; operations that could overflow say so. -/
structure BitRange where
  left : Int := 0
  right : Int := 0
deriving DecidableEq, Repr

/-- `ConstantRange::lower` (used at include/netlist/DriverBitRange.hpp:18). -/
def BitRange.lower (r : BitRange) : Int := min r.left r.right

/-- `ConstantRange::upper` (used at include/netlist/DriverBitRange.hpp:18). -/
def BitRange.upper (r : BitRange) : Int := max r.left r.right

/-- `ConstantRange::overlaps` (used at include/netlist/DriverBitRange.hpp:38). -/
def BitRange.overlaps (a b : BitRange) : Bool := a.lower ≤ b.upper && b.lower ≤ a.upper

/-- `isContiguousWith` (include/netlist/DriverBitRange.hpp:23-25), without the overflow of
`upper() + 1` at the largest 32-bit value. -/
def BitRange.contiguous (a b : BitRange) : Bool :=
  a.upper + 1 ≥ b.lower && b.upper + 1 ≥ a.lower

/-- `unionWith` (include/netlist/DriverBitRange.hpp:29-32). -/
def BitRange.unionWith (a b : BitRange) : BitRange :=
  ⟨min a.lower b.lower, max a.upper b.upper⟩

/-- `intersection` (include/netlist/DriverBitRange.hpp:36-43). -/
def BitRange.intersection (a b : BitRange) : Option BitRange :=
  if a.overlaps b then some ⟨max a.lower b.lower, min a.upper b.upper⟩ else none

/-- `FileTable::NoFile` (include/netlist/TextLocation.hpp:28). -/
def noFile : Nat := 4294967295

/-- `TextLocation` (include/netlist/TextLocation.hpp:71-101): file table index, line and column.
The transient `sourceLocation` is not modelled. -/
structure TextLoc where
  file : Nat := noFile
  line : Nat := 0
  col : Nat := 0
deriving DecidableEq, Repr

/-- `SymbolReference` (include/netlist/SymbolReference.hpp:16-28). Edges hold a pointer to an
interned record; the model stores the record itself. Interning makes pointer equality coincide
with equality of `path` (see the interning properties). -/
structure SymRef where
  name : Str
  path : Str
  loc : TextLoc := {}
deriving DecidableEq, Repr

/-- The node classes and their fields (include/netlist/NetlistNode.hpp:71-244). A constant's
value is kept as its printed form. `bare` is a node constructed directly from the base class with
`NodeKind::None`. -/
inductive NodeData where
  | bare
  | port (name path : Str) (loc : TextLoc) (dir : ArgDir) (bounds : BitRange)
  | variable (name path : Str) (loc : TextLoc) (bounds : BitRange)
  | state (name path : Str) (loc : TextLoc) (bounds : BitRange)
  | assignment (loc : TextLoc)
  | conditional (loc : TextLoc)
  | case (loc : TextLoc)
  | merge
  | constant (value : Str) (width : Nat) (loc : TextLoc)
deriving DecidableEq, Repr

/-- The `kind` field set by each constructor (include/netlist/NetlistNode.hpp:81, 117, 147, 173,
189, 205, 218, 234). -/
def NodeData.kind : NodeData → NodeKind
  | .bare => .none
  | .port .. => .port
  | .variable .. => .variable
  | .state .. => .state
  | .assignment _ => .assignment
  | .conditional _ => .conditional
  | .case _ => .case
  | .merge => .merge
  | .constant .. => .constant

/-- `getHierarchicalPath` and its overrides
(include/netlist/NetlistNode.hpp:55-57, 95-97, 125-127, 155-157). -/
def NodeData.path : NodeData → Option Str
  | .bare => none
  | .port _ p _ _ _ => some p
  | .variable _ p _ _ => some p
  | .state _ p _ _ => some p
  | .assignment _ => none
  | .conditional _ => none
  | .case _ => none
  | .merge => none
  | .constant .. => none

/-- `getBounds` and its overrides
(include/netlist/NetlistNode.hpp:59-61, 99-101, 129-131, 159-161). -/
def NodeData.bounds : NodeData → Option BitRange
  | .bare => none
  | .port _ _ _ _ b => some b
  | .variable _ _ _ b => some b
  | .state _ _ _ b => some b
  | .assignment _ => none
  | .conditional _ => none
  | .case _ => none
  | .merge => none
  | .constant .. => none

/-- Annotations of an edge (include/netlist/NetlistEdge.hpp:20-23). -/
structure EdgeAttr where
  edgeKind : EdgeKind := .none
  symbol : Option SymRef := none
  bounds : BitRange := {}
  disabled : Bool := false
deriving DecidableEq, Repr

/-- The netlist graph: the directed graph plus, for every node address, its ID and class fields,
and for every edge address its annotations (include/netlist/NetlistGraph.hpp:44-47, 203-207).
`nextID` is the process-wide counter of include/netlist/NetlistNode.hpp:41, 68. -/
structure NetGraph where
  g : DGraph := {}
  id : Nat → Nat := fun _ => 0
  data : Nat → NodeData := fun _ => .bare
  attr : Nat → EdgeAttr := fun _ => {}
  nextID : Nat := 1
  blackBoxes : List Str := []

/-- Kind of the node at an address (include/netlist/NetlistNode.hpp:38). -/
def NetGraph.kind (net : NetGraph) (n : Nat) : NodeKind := (net.data n).kind

/-- Calls that build or change a netlist. `resetIds` is the effect of constructing a
`NetlistBuilder` (source/NetlistBuilder.cpp:41). `setAttr` covers every write to the public
annotation fields of an edge (include/netlist/NetlistEdge.hpp:20-23, 28, 41-53, 58). -/
inductive NetOp where
  | addNode (d : NodeData)
  | addEdge (s t : Nat)
  | addNewEdge (s t : Nat)
  | removeEdge (s t : Nat)
  | clearAllEdges (n : Nat)
  | removeNode (n : Nat)
  | setAttr (e : Nat) (a : EdgeAttr)
  | resetIds
  | addBlackBox (p : Str)
deriving DecidableEq, Repr

/-- The part of an operation that acts on the directed graph (include/netlist/DirectedGraph.hpp:397-450). -/
def NetOp.gop : NetOp → Option GOp
  | .addNode _ => some .addNode
  | .addEdge s t => some (.addEdge s t)
  | .addNewEdge s t => some (.addNewEdge s t)
  | .removeEdge s t => some (.removeEdge s t)
  | .clearAllEdges n => some (.clearAllEdges n)
  | .removeNode n => some (.removeNode n)
  | .setAttr _ _ => none
  | .resetIds => none
  | .addBlackBox _ => none

/-- One call. A new node takes the next ID (include/netlist/NetlistNode.hpp:40-41); a new edge
starts without annotations (include/netlist/NetlistEdge.hpp:20-26). Edge addresses are never
reused in the model, so clearing the annotations of the next address at every call is the same
as initialising each new edge. -/
def NetGraph.call (net : NetGraph) (op : NetOp) : Option NetGraph :=
  match op.gop with
  | some gop =>
    match net.g.call gop with
    | none => none
    | some (g', _) =>
      some { net with
        g := g'
        attr := fun e => if e = net.g.nextEdge then {} else net.attr e
        id := match op with
          | .addNode _ => fun n => if n = net.g.nextNode then net.nextID else net.id n
          | _ => net.id
        data := match op with
          | .addNode d => fun n => if n = net.g.nextNode then d else net.data n
          | _ => net.data
        nextID := match op with
          | .addNode _ => net.nextID + 1
          | _ => net.nextID }
  | none =>
    match op with
    | .setAttr e a => some { net with attr := fun k => if k = e then a else net.attr k }
    | .resetIds => some { net with nextID := 1 }
    | .addBlackBox p => some { net with blackBoxes := net.blackBoxes ++ [p] }
    | _ => some net

/-- A history of calls (include/netlist/DirectedGraph.hpp:397-450). -/
def NetGraph.calls (net : NetGraph) : List NetOp → Option NetGraph
  | [] => some net
  | op :: ops =>
    match net.call op with
    | none => none
    | some net' => NetGraph.calls net' ops

end Verif.Model

import Verif.Model.NetGraph
import Verif.Model.RangeArg

/-!
DOT export: `NetlistDot` (include/netlist/NetlistDot.hpp:13-112).
-/
namespace Verif.Model

/-- A literal piece of output text (the literals of include/netlist/NetlistDot.hpp:33-110). -/
@[irreducible] def lit (s : String) : Str := s.toList

/-- `toString(ArgumentDirection)`: slang prints the enumerator
(used at include/netlist/NetlistDot.hpp:34). -/
def ArgDir.text : ArgDir → Str
  | .input => lit "In"
  | .output => lit "Out"
  | .inout => lit "InOut"
  | .ref => lit "Ref"

/-- `writeNode` (include/netlist/NetlistDot.hpp:29-73). `none` is the unreachable default case, for
a node of kind `None`. A constant's value is kept as its printed form. -/
def writeNode (id : Nat) : NodeData → Option Str
  | .port name _ _ dir _ =>
    some (lit "  N" ++ decNat id ++ lit " [label=\"" ++ dir.text ++ lit " port " ++ name ++
      lit "\"]\n")
  | .variable name _ _ _ =>
    some (lit "  N" ++ decNat id ++ lit " [label=\"Variable " ++ name ++ lit "\"]\n")
  | .assignment _ => some (lit "  N" ++ decNat id ++ lit " [label=\"Assignment\"]\n")
  | .case _ => some (lit "  N" ++ decNat id ++ lit " [label=\"Case\"]\n")
  | .conditional _ => some (lit "  N" ++ decNat id ++ lit " [label=\"Conditional\"]\n")
  | .merge => some (lit "  N" ++ decNat id ++ lit " [label=\"Merge\"]\n")
  | .state name _ _ b =>
    some (lit "  N" ++ decNat id ++ lit " [label=\"" ++ name ++ lit " " ++ rangeText b ++
      lit "\"]\n")
  | .constant v _ _ =>
    some (lit "  N" ++ decNat id ++ lit " [label=\"Const " ++ v ++ lit "\"]\n")
  | .bare => none

/-- The text for one edge (include/netlist/NetlistDot.hpp:101-107). -/
def writeEdge (net : NetGraph) (n : Nat) (e : Edge) : Str :=
  match (net.attr e.id).symbol with
  | some s =>
    if s.name.isEmpty then
      lit "  N" ++ decNat (net.id n) ++ lit " -> N" ++ decNat (net.id e.tgt) ++ lit "\n"
    else
      lit "  N" ++ decNat (net.id n) ++ lit " -> N" ++ decNat (net.id e.tgt) ++
        lit " [label=\"" ++ s.name ++ rangeText (net.attr e.id).bounds ++ lit "\"]\n"
  | none =>
    lit "  N" ++ decNat (net.id n) ++ lit " -> N" ++ decNat (net.id e.tgt) ++ lit "\n"

/-- The `included` predicate (include/netlist/NetlistDot.hpp:78-80). `none` is the null filter of the
whole-netlist overload (lines 16-18). -/
def dotIncluded (filter : Option (List Nat)) (n : Nat) : Bool :=
  match filter with
  | none => true
  | some l => l.contains n

/-- First loop of `renderImpl` (include/netlist/NetlistDot.hpp:84-89). -/
def dotNodes (net : NetGraph) (filter : Option (List Nat)) (buf : Str) : List Nat → Option Str
  | [] => some buf
  | n :: ns =>
    if !dotIncluded filter n then dotNodes net filter buf ns
    else
      match writeNode (net.id n) (net.data n) with
      | none => none
      | some t => dotNodes net filter (buf ++ t) ns

/-- Inner loop over the out-edges of one node (include/netlist/NetlistDot.hpp:94-108). -/
def dotOutEdges (net : NetGraph) (filter : Option (List Nat)) (n : Nat) (buf : Str) :
    List Edge → Str
  | [] => buf
  | e :: es =>
    if (net.attr e.id).disabled then dotOutEdges net filter n buf es
    else if !dotIncluded filter e.tgt then dotOutEdges net filter n buf es
    else dotOutEdges net filter n (buf ++ writeEdge net n e) es

/-- Second loop of `renderImpl` (include/netlist/NetlistDot.hpp:90-109). -/
def dotEdges (net : NetGraph) (filter : Option (List Nat)) (buf : Str) : List Nat → Str
  | [] => buf
  | n :: ns =>
    if !dotIncluded filter n then dotEdges net filter buf ns
    else dotEdges net filter (dotOutEdges net filter n buf (net.g.obj n).outE) ns

/-- `renderImpl` (include/netlist/NetlistDot.hpp:75-111), starting from an empty buffer. -/
def renderDot (net : NetGraph) (filter : Option (List Nat)) : Option Str :=
  let buf := lit "digraph {\n" ++ lit "  node [shape=record];\n"
  match dotNodes net filter buf net.g.nodes with
  | none => none
  | some buf => some (dotEdges net filter buf net.g.nodes ++ lit "}\n")

end Verif.Model

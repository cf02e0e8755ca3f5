import Verif.Conform.Base

/-!
The model on the designs of the project's unit tests. The tests under `tests/unit` state the DOT text of
the netlists of some small designs. Here the same designs are given to the model, and the nodes and edges
that it prints (include/netlist/NetlistDot.hpp:27-111) are those of the text, in the same order. These are
tests of the model, not proofs about the code.
-/
namespace Verif.Conform
open Verif.Model

/-- A line of the text for a node (include/netlist/NetlistDot.hpp:27-73). -/
inductive Ln where
  | port (dir : ArgDir) (name : Str)
  | var (name : Str)
  | asg | case | cond | merge
  | reg (name : Str) (hi lo : Int)
  | const (value : Str)
  | bare
deriving DecidableEq

/-- What is printed for a node (include/netlist/NetlistDot.hpp:27-73). -/
def lineOf : NodeData → Ln
  | .port n _ _ d _ => .port d n
  | .variable n _ _ _ => .var n
  | .assignment _ => .asg
  | .case _ => .case
  | .conditional _ => .cond
  | .merge => .merge
  | .state n _ _ b => .reg n b.upper b.lower
  | .constant v _ _ => .const v
  | .bare => .bare

/-- What is printed for an edge (include/netlist/NetlistDot.hpp:94-108): the ends, and the name and range
of its symbol. -/
structure Arrow where
  src : Nat
  tgt : Nat
  label : Option (Str × Int × Int)
deriving DecidableEq

def arrowOf (net : NetGraph) (n : Nat) (e : Edge) : Arrow :=
  ⟨net.id n, net.id e.tgt, match (net.attr e.id).symbol with
    | some s => if s.name = [] then none else some (s.name, (net.attr e.id).bounds.upper, (net.attr e.id).bounds.lower)
    | none => none⟩

/-- Nodes with their numbers, and edges. -/
def picture (net : NetGraph) : List (Nat × Ln) × List Arrow :=
  (net.g.nodes.map fun n => (net.id n, lineOf (net.data n)),
    net.g.nodes.flatMap fun n => ((net.g.obj n).outE.filter fun e => !(net.attr e.id).disabled).map (arrowOf net n))

/-- What is printed for a design. -/
def dotOf (d : Design') : Option (List (Nat × Ln) × List Arrow) :=
  match build d with
  | .error _ => none
  | .ok net => some (picture net)

/-- `if (a) b = 1; else b = 0;` tests/unit/ConditionalTests.cpp:3-37. -/
def ifConst : Design' :=
  { sigs := [⟨chs "a", 1, true, chs "a"⟩, ⟨chs "b", 1, true, chs "b"⟩]
    tree := top [inp 0, outp 1, blk 0]
    blocks := [comb (ite (sl 0) (ba (sl 1) (kInt .one)) (ba (sl 1) (kInt .zero)))] }

theorem ifConst_dot : dotOf ifConst = some (
    [(1, .port .input (chs "a")), (2, .port .output (chs "b")), (3, .cond), (4, .asg), (5, .const (chs "1'b1")),
     (6, .asg), (7, .const (chs "1'b0")), (8, .merge)],
    [⟨1, 3, some (chs "a", 0, 0)⟩, ⟨3, 4, none⟩, ⟨3, 6, none⟩, ⟨4, 8, none⟩, ⟨4, 2, some (chs "b", 0, 0)⟩,
     ⟨5, 4, none⟩, ⟨6, 8, none⟩, ⟨6, 2, some (chs "b", 0, 0)⟩, ⟨7, 6, none⟩]) := by
  decide +kernel

/-- `if (a) d = b; else d = c;` tests/unit/ConditionalTests.cpp:40-76. -/
def ifVar : Design' :=
  { sigs := [⟨chs "a", 1, true, chs "a"⟩, ⟨chs "b", 1, true, chs "b"⟩, ⟨chs "c", 1, true, chs "c"⟩, ⟨chs "d", 1, true, chs "d"⟩]
    tree := top [inp 0, inp 1, inp 2, outp 3, blk 0]
    blocks := [comb (ite (sl 0) (ba (sl 3) (sl 1)) (ba (sl 3) (sl 2)))] }

theorem ifVar_dot : dotOf ifVar = some (
    [(1, .port .input (chs "a")), (2, .port .input (chs "b")), (3, .port .input (chs "c")),
     (4, .port .output (chs "d")), (5, .cond), (6, .asg), (7, .asg), (8, .merge)],
    [⟨1, 5, some (chs "a", 0, 0)⟩, ⟨2, 6, some (chs "b", 0, 0)⟩, ⟨3, 7, some (chs "c", 0, 0)⟩, ⟨5, 6, none⟩,
     ⟨5, 7, none⟩, ⟨6, 8, none⟩, ⟨6, 4, some (chs "d", 0, 0)⟩, ⟨7, 8, none⟩, ⟨7, 4, some (chs "d", 0, 0)⟩]) := by
  decide +kernel

/-- `assign c = ctrl ? a : b;` tests/unit/ConditionalTests.cpp:79-101. -/
def ternary : Design' :=
  { sigs := [⟨chs "a", 1, true, chs "a"⟩, ⟨chs "b", 1, true, chs "b"⟩, ⟨chs "ctrl", 1, true, chs "ctrl"⟩, ⟨chs "c", 1, true, chs "c"⟩]
    tree := top [inp 0, inp 1, inp 2, outp 3, blk 0]
    blocks := [cont (sl 3) (.condOp 1 1 false [] (sl 2) (sl 0) (sl 1))] }

theorem ternary_dot : dotOf ternary = some (
    [(1, .port .input (chs "a")), (2, .port .input (chs "b")), (3, .port .input (chs "ctrl")),
     (4, .port .output (chs "c")), (5, .asg)],
    [⟨1, 5, some (chs "a", 0, 0)⟩, ⟨2, 5, some (chs "b", 0, 0)⟩, ⟨3, 5, some (chs "ctrl", 0, 0)⟩,
     ⟨5, 4, some (chs "c", 0, 0)⟩]) := by
  decide +kernel

/-- A `case` with four items that assign constants. tests/unit/ConditionalTests.cpp:104-154. -/
def fourCase : Design' :=
  { sigs := [⟨chs "a", 2, true, chs "a"⟩, ⟨chs "b", 1, true, chs "b"⟩]
    tree := top [inp 0 2, outp 1, blk 0]
    blocks := [comb (.cond true {} [sl 0 1] (.choose true (.choose true (.choose true (ba (sl 1) (kInt .zero)) (ba (sl 1) (kInt .one)))
        (ba (sl 1) (kInt .zero))) (ba (sl 1) (kInt .one))))] }

theorem fourCase_dot : dotOf fourCase = some (
    [(1, .port .input (chs "a")), (2, .port .output (chs "b")), (3, .case), (4, .asg), (5, .const (chs "1'b0")),
     (6, .asg), (7, .const (chs "1'b1")), (8, .merge), (9, .asg), (10, .const (chs "1'b0")), (11, .merge),
     (12, .asg), (13, .const (chs "1'b1")), (14, .merge)],
    [⟨1, 3, some (chs "a", 1, 0)⟩, ⟨3, 4, none⟩, ⟨3, 6, none⟩, ⟨3, 9, none⟩, ⟨3, 12, none⟩, ⟨4, 8, none⟩,
     ⟨4, 2, some (chs "b", 0, 0)⟩, ⟨5, 4, none⟩, ⟨6, 8, none⟩, ⟨6, 2, some (chs "b", 0, 0)⟩, ⟨7, 6, none⟩,
     ⟨8, 11, none⟩, ⟨9, 11, none⟩, ⟨9, 2, some (chs "b", 0, 0)⟩, ⟨10, 9, none⟩, ⟨11, 14, none⟩, ⟨12, 14, none⟩,
     ⟨12, 2, some (chs "b", 0, 0)⟩, ⟨13, 12, none⟩]) := by
  decide +kernel

/-- `x[1] = x[0]; x[2] = x[1]; x[3] = x[2];` between continuous assignments. tests/unit/DatatypeTests.cpp:20-53. -/
def packedChain : Design' :=
  { sigs := [⟨chs "i_value", 1, true, chs "i_value"⟩, ⟨chs "o_value", 1, true, chs "o_value"⟩, ⟨chs "x", 5, false, chs "x"⟩]
    tree := top [inp 0, outp 1, blk 0, blk 1, blk 2, blk 3]
    blocks := [cont (sl 2 0 0) (sl 0),
      comb (sq [ba (sl 2 1 1) (sl 2 0 0), ba (sl 2 2 2) (sl 2 1 1), ba (sl 2 3 3) (sl 2 2 2)]),
      cont (sl 2 4 4) (sl 2 3 3),
      cont (sl 1) (sl 2 4 4)] }

theorem packedChain_dot : dotOf packedChain = some (
    [(1, .port .input (chs "i_value")), (2, .port .output (chs "o_value")), (3, .asg), (4, .asg), (5, .asg),
     (6, .asg), (7, .asg), (8, .asg)],
    [⟨1, 3, some (chs "i_value", 0, 0)⟩, ⟨3, 4, some (chs "x", 0, 0)⟩, ⟨4, 5, some (chs "x", 1, 1)⟩,
     ⟨5, 6, some (chs "x", 2, 2)⟩, ⟨6, 7, some (chs "x", 3, 3)⟩, ⟨7, 8, some (chs "x", 4, 4)⟩,
     ⟨8, 2, some (chs "o_value", 0, 0)⟩]) := by
  decide +kernel

/-- Two signals through ranges of a vector. tests/unit/DatatypeTests.cpp:56-91. -/
def ranges : Design' :=
  { sigs := [⟨chs "i_value_a", 2, true, chs "i_value_a"⟩, ⟨chs "i_value_b", 2, true, chs "i_value_b"⟩, ⟨chs "o_value_a", 2, true, chs "o_value_a"⟩, ⟨chs "o_value_b", 2, true, chs "o_value_b"⟩, ⟨chs "foo", 4, false, chs "foo"⟩]
    tree := top [inp 0 2, inp 1 2, outp 2 2, outp 3 2, blk 0, blk 1, blk 2, blk 3]
    blocks := [cont (sl 4 1 0) (sl 0 1),
      cont (sl 4 3 2) (sl 1 1),
      cont (sl 2 1) (sl 4 1 0),
      cont (sl 3 1) (sl 4 3 2)] }

theorem ranges_dot : dotOf ranges = some (
    [(1, .port .input (chs "i_value_a")), (2, .port .input (chs "i_value_b")),
     (3, .port .output (chs "o_value_a")), (4, .port .output (chs "o_value_b")), (5, .asg), (6, .asg),
     (7, .asg), (8, .asg)],
    [⟨1, 5, some (chs "i_value_a", 1, 0)⟩, ⟨2, 6, some (chs "i_value_b", 1, 0)⟩, ⟨5, 7, some (chs "foo", 1, 0)⟩,
     ⟨6, 8, some (chs "foo", 3, 2)⟩, ⟨7, 3, some (chs "o_value_a", 1, 0)⟩, ⟨8, 4, some (chs "o_value_b", 1, 0)⟩]) := by
  decide +kernel

/-- Two signals through the members of a packed structure. tests/unit/DatatypeTests.cpp:94-131. -/
def packedStruct : Design' :=
  { sigs := [⟨chs "i_value_a", 1, true, chs "i_value_a"⟩, ⟨chs "i_value_b", 1, true, chs "i_value_b"⟩, ⟨chs "o_value_a", 1, true, chs "o_value_a"⟩, ⟨chs "o_value_b", 1, true, chs "o_value_b"⟩, ⟨chs "foo", 2, false, chs "foo"⟩]
    tree := top [inp 0, inp 1, outp 2, outp 3, blk 0, blk 1, blk 2, blk 3]
    blocks := [cont (sl 4 1 1) (sl 0),
      cont (sl 4 0 0) (sl 1),
      cont (sl 2) (sl 4 1 1),
      cont (sl 3) (sl 4 0 0)] }

theorem packedStruct_dot : dotOf packedStruct = some (
    [(1, .port .input (chs "i_value_a")), (2, .port .input (chs "i_value_b")),
     (3, .port .output (chs "o_value_a")), (4, .port .output (chs "o_value_b")), (5, .asg), (6, .asg),
     (7, .asg), (8, .asg)],
    [⟨1, 5, some (chs "i_value_a", 0, 0)⟩, ⟨2, 6, some (chs "i_value_b", 0, 0)⟩, ⟨5, 7, some (chs "foo", 1, 1)⟩,
     ⟨6, 8, some (chs "foo", 0, 0)⟩, ⟨7, 3, some (chs "o_value_a", 0, 0)⟩, ⟨8, 4, some (chs "o_value_b", 0, 0)⟩]) := by
  decide +kernel

/-- Two signals through the members of a packed union. tests/unit/DatatypeTests.cpp:134-176. -/
def packedUnion : Design' :=
  { sigs := [⟨chs "i_value_a", 1, true, chs "i_value_a"⟩, ⟨chs "i_value_b", 1, true, chs "i_value_b"⟩, ⟨chs "o_value_a", 1, true, chs "o_value_a"⟩, ⟨chs "o_value_b", 1, true, chs "o_value_b"⟩, ⟨chs "o_value_c", 1, true, chs "o_value_c"⟩, ⟨chs "foo", 2, false, chs "foo"⟩]
    tree := top [inp 0, inp 1, outp 2, outp 3, outp 4, blk 0, blk 1, blk 2, blk 3, blk 4]
    blocks := [cont (sl 5 0 0) (sl 0),
      cont (sl 5 1 1) (sl 1),
      cont (sl 2) (sl 5 0 0),
      cont (sl 3) (sl 5 1 1),
      cont (sl 4) (sl 5 0 0)] }

theorem packedUnion_dot : dotOf packedUnion = some (
    [(1, .port .input (chs "i_value_a")), (2, .port .input (chs "i_value_b")),
     (3, .port .output (chs "o_value_a")), (4, .port .output (chs "o_value_b")),
     (5, .port .output (chs "o_value_c")), (6, .asg), (7, .asg), (8, .asg), (9, .asg), (10, .asg)],
    [⟨1, 6, some (chs "i_value_a", 0, 0)⟩, ⟨2, 7, some (chs "i_value_b", 0, 0)⟩, ⟨6, 8, some (chs "foo", 0, 0)⟩,
     ⟨6, 10, some (chs "foo", 0, 0)⟩, ⟨7, 9, some (chs "foo", 1, 1)⟩, ⟨8, 3, some (chs "o_value_a", 0, 0)⟩,
     ⟨9, 4, some (chs "o_value_b", 0, 0)⟩, ⟨10, 5, some (chs "o_value_c", 0, 0)⟩]) := by
  decide +kernel

/-- An instance of `assign z = x | y;`. tests/unit/InstanceTests.cpp:3-36. -/
def oneInstance : Design' :=
  { sigs := [⟨chs "a", 1, true, chs "a"⟩, ⟨chs "b", 1, true, chs "b"⟩, ⟨chs "c", 1, true, chs "c"⟩, ⟨chs "x", 1, true, chs "x"⟩, ⟨chs "y", 1, true, chs "y"⟩, ⟨chs "z", 1, true, chs "z"⟩]
    tree := top [inp 0, inp 1, outp 2, .inst false (chs "foo") (chs "top.u_mux") [inp 3, inp 4, outp 5, blk 0]
        [⟨.port 103 (some 3), some (sl 0), false, true⟩, ⟨.port 104 (some 4), some (sl 1), false, true⟩, ⟨.port 105 (some 5), some (sl 2), true, true⟩]]
    blocks := [cont (sl 5) (op 1 [pth 3, pth 4])] }

theorem oneInstance_dot : dotOf oneInstance = some (
    [(1, .port .input (chs "a")), (2, .port .input (chs "b")), (3, .port .output (chs "c")),
     (4, .port .input (chs "x")), (5, .port .input (chs "y")), (6, .port .output (chs "z")), (7, .asg)],
    [⟨1, 4, some (chs "a", 0, 0)⟩, ⟨2, 5, some (chs "b", 0, 0)⟩, ⟨4, 7, some (chs "x", 0, 0)⟩,
     ⟨5, 7, some (chs "y", 0, 0)⟩, ⟨6, 3, some (chs "c", 0, 0)⟩, ⟨7, 6, some (chs "z", 0, 0)⟩]) := by
  decide +kernel

/-- A signal through an instance. tests/unit/InstanceTests.cpp:39-65. -/
def nestedPass : Design' :=
  { sigs := [⟨chs "i_value", 1, true, chs "i_value"⟩, ⟨chs "o_value", 1, true, chs "o_value"⟩, ⟨chs "i_value", 1, true, chs "i_value"⟩, ⟨chs "o_value", 1, true, chs "o_value"⟩]
    tree := top [inp 0, outp 1, .inst false (chs "p") (chs "m.foo") [inp 2, outp 3, blk 0]
        [⟨.port 102 (some 2), some (sl 0), false, true⟩, ⟨.port 103 (some 3), some (sl 1), true, true⟩]]
    blocks := [cont (sl 3) (sl 2)] }

theorem nestedPass_dot : dotOf nestedPass = some (
    [(1, .port .input (chs "i_value")), (2, .port .output (chs "o_value")), (3, .port .input (chs "i_value")),
     (4, .port .output (chs "o_value")), (5, .asg)],
    [⟨1, 3, some (chs "i_value", 0, 0)⟩, ⟨3, 5, some (chs "i_value", 0, 0)⟩, ⟨4, 2, some (chs "o_value", 0, 0)⟩,
     ⟨5, 4, some (chs "o_value", 0, 0)⟩]) := by
  decide +kernel

/-- A signal through two instances. tests/unit/InstanceTests.cpp:68-104. -/
def chainPass : Design' :=
  { sigs := [⟨chs "i_value", 1, true, chs "i_value"⟩, ⟨chs "o_value", 1, true, chs "o_value"⟩, ⟨chs "value", 1, false, chs "value"⟩, ⟨chs "i_value", 1, true, chs "i_value"⟩, ⟨chs "o_value", 1, true, chs "o_value"⟩, ⟨chs "i_value", 1, true, chs "i_value"⟩, ⟨chs "o_value", 1, true, chs "o_value"⟩]
    tree := top [inp 0, outp 1, .inst false (chs "passthrough") (chs "m.a") [inp 3, outp 4, blk 0]
        [⟨.port 103 (some 3), some (sl 0), false, true⟩, ⟨.port 104 (some 4), some (sl 2), true, true⟩],
      .inst false (chs "passthrough") (chs "m.b") [inp 5, outp 6, blk 1]
        [⟨.port 105 (some 5), some (sl 2), false, true⟩, ⟨.port 106 (some 6), some (sl 1), true, true⟩]]
    blocks := [cont (sl 4) (sl 3),
      cont (sl 6) (sl 5)] }

theorem chainPass_dot : dotOf chainPass = some (
    [(1, .port .input (chs "i_value")), (2, .port .output (chs "o_value")), (3, .port .input (chs "i_value")),
     (4, .port .output (chs "o_value")), (5, .port .input (chs "i_value")), (6, .port .output (chs "o_value")),
     (7, .asg), (8, .asg)],
    [⟨1, 3, some (chs "i_value", 0, 0)⟩, ⟨3, 7, some (chs "i_value", 0, 0)⟩, ⟨4, 5, some (chs "value", 0, 0)⟩,
     ⟨5, 8, some (chs "i_value", 0, 0)⟩, ⟨6, 2, some (chs "o_value", 0, 0)⟩,
     ⟨7, 4, some (chs "o_value", 0, 0)⟩, ⟨8, 6, some (chs "o_value", 0, 0)⟩]) := by
  decide +kernel

/-- Two instances joined by a signal. tests/unit/InstanceTests.cpp:216-244. -/
def basicPort : Design' :=
  { sigs := [⟨chs "a", 1, false, chs "a"⟩, ⟨chs "a", 1, true, chs "a"⟩, ⟨chs "a", 1, true, chs "a"⟩, ⟨chs "b", 1, false, chs "b"⟩]
    tree := top [.inst false (chs "foo") (chs "m.foo0") [outp 1, blk 0]
        [⟨.port 101 (some 1), some (sl 0), true, true⟩],
      .inst false (chs "bar") (chs "m.bar0") [inp 2, blk 1]
        [⟨.port 102 (some 2), some (sl 0), false, true⟩]]
    blocks := [cont (sl 1) (kInt .one),
      cont (sl 3) (sl 2)] }

theorem basicPort_dot : dotOf basicPort = some (
    [(1, .port .output (chs "a")), (2, .port .input (chs "a")), (3, .asg), (4, .const (chs "1'b1")), (5, .asg)],
    [⟨1, 2, some (chs "a", 0, 0)⟩, ⟨2, 5, some (chs "a", 0, 0)⟩, ⟨3, 1, some (chs "a", 0, 0)⟩, ⟨4, 3, none⟩]) := by
  decide +kernel

/-- `for (int i=0; i<N-1; i++) p[i+1] = p[i];`, unrolled. tests/unit/LoopTests.cpp:3-37. -/
def loopChain : Design' :=
  { sigs := [⟨chs "a", 1, true, chs "a"⟩, ⟨chs "b", 1, true, chs "b"⟩, ⟨chs "p", 4, false, chs "p"⟩]
    tree := top [inp 0, outp 1, blk 0, blk 1]
    blocks := [cont (sl 1) (sl 2 3 3),
      comb (.seq (ba (sl 2 0 0) (sl 0)) (.choose true .skip
        (sq [ba (sl 2 1 1) (sl 2 0 0), ba (sl 2 2 2) (sl 2 1 1), ba (sl 2 3 3) (sl 2 2 2)])))] }

theorem loopChain_dot : dotOf loopChain = some (
    [(1, .port .input (chs "a")), (2, .port .output (chs "b")), (3, .asg), (4, .asg), (5, .asg), (6, .asg),
     (7, .asg), (8, .merge)],
    [⟨1, 4, some (chs "a", 0, 0)⟩, ⟨3, 2, some (chs "b", 0, 0)⟩, ⟨4, 5, some (chs "p", 0, 0)⟩, ⟨4, 8, none⟩,
     ⟨5, 6, some (chs "p", 1, 1)⟩, ⟨6, 7, some (chs "p", 2, 2)⟩, ⟨7, 8, none⟩, ⟨7, 3, some (chs "p", 3, 3)⟩]) := by
  decide +kernel

/-- `assign b = a;` tests/unit/MiscTests.cpp:13-29. -/
def passthrough : Design' :=
  { sigs := [⟨chs "a", 1, true, chs "a"⟩, ⟨chs "b", 1, true, chs "b"⟩]
    tree := top [inp 0, outp 1, blk 0]
    blocks := [cont (sl 1) (sl 0)] }

theorem passthrough_dot : dotOf passthrough = some (
    [(1, .port .input (chs "a")), (2, .port .output (chs "b")), (3, .asg)],
    [⟨1, 3, some (chs "a", 0, 0)⟩, ⟨3, 2, some (chs "b", 0, 0)⟩]) := by
  decide +kernel

/-- `assign b = temp; assign temp = a;` tests/unit/MiscTests.cpp:32-52. -/
def outOfOrder : Design' :=
  { sigs := [⟨chs "a", 1, true, chs "a"⟩, ⟨chs "b", 1, true, chs "b"⟩, ⟨chs "temp", 1, false, chs "temp"⟩]
    tree := top [inp 0, outp 1, blk 0, blk 1]
    blocks := [cont (sl 1) (sl 2),
      cont (sl 2) (sl 0)] }

theorem outOfOrder_dot : dotOf outOfOrder = some (
    [(1, .port .input (chs "a")), (2, .port .output (chs "b")), (3, .asg), (4, .asg)],
    [⟨1, 4, some (chs "a", 0, 0)⟩, ⟨3, 2, some (chs "b", 0, 0)⟩, ⟨4, 3, some (chs "temp", 0, 0)⟩]) := by
  decide +kernel

/-- A chain through procedural and continuous assignments. tests/unit/MiscTests.cpp:71-105. -/
def mixedChain : Design' :=
  { sigs := [⟨chs "i_value", 1, true, chs "i_value"⟩, ⟨chs "o_value", 1, true, chs "o_value"⟩, ⟨chs "a", 1, false, chs "a"⟩, ⟨chs "b", 1, false, chs "b"⟩, ⟨chs "c", 1, false, chs "c"⟩, ⟨chs "d", 1, false, chs "d"⟩, ⟨chs "e", 1, false, chs "e"⟩]
    tree := top [inp 0, outp 1, blk 0, blk 1, blk 2, blk 3]
    blocks := [cont (sl 2) (sl 0),
      comb (sq [ba (sl 3) (sl 2), ba (sl 4) (sl 3), ba (sl 5) (sl 4)]),
      cont (sl 6) (sl 5),
      cont (sl 1) (sl 6)] }

theorem mixedChain_dot : dotOf mixedChain = some (
    [(1, .port .input (chs "i_value")), (2, .port .output (chs "o_value")), (3, .asg), (4, .asg), (5, .asg),
     (6, .asg), (7, .asg), (8, .asg)],
    [⟨1, 3, some (chs "i_value", 0, 0)⟩, ⟨3, 4, some (chs "a", 0, 0)⟩, ⟨4, 5, some (chs "b", 0, 0)⟩,
     ⟨5, 6, some (chs "c", 0, 0)⟩, ⟨6, 7, some (chs "d", 0, 0)⟩, ⟨7, 8, some (chs "e", 0, 0)⟩,
     ⟨8, 2, some (chs "o_value", 0, 0)⟩]) := by
  decide +kernel

/-- A chain through continuous assignments. tests/unit/MiscTests.cpp:108-134. -/
def contChain : Design' :=
  { sigs := [⟨chs "a", 1, true, chs "a"⟩, ⟨chs "b", 1, true, chs "b"⟩, ⟨chs "pipe", 3, false, chs "pipe"⟩]
    tree := top [inp 0, outp 1, blk 0, blk 1, blk 2, blk 3]
    blocks := [cont (sl 2 0 0) (sl 0),
      cont (sl 2 1 1) (sl 2 0 0),
      cont (sl 2 2 2) (sl 2 1 1),
      cont (sl 1) (sl 2 2 2)] }

theorem contChain_dot : dotOf contChain = some (
    [(1, .port .input (chs "a")), (2, .port .output (chs "b")), (3, .asg), (4, .asg), (5, .asg), (6, .asg)],
    [⟨1, 3, some (chs "a", 0, 0)⟩, ⟨3, 4, some (chs "pipe", 0, 0)⟩, ⟨4, 5, some (chs "pipe", 1, 1)⟩,
     ⟨5, 6, some (chs "pipe", 2, 2)⟩, ⟨6, 2, some (chs "b", 0, 0)⟩]) := by
  decide +kernel

/-- `p[0] = a; p[2] = p[0] + p[1];` where `p[1]` is assigned outside. tests/unit/MiscTests.cpp:137-169. -/
def inAndOut : Design' :=
  { sigs := [⟨chs "a", 1, true, chs "a"⟩, ⟨chs "b", 1, true, chs "b"⟩, ⟨chs "c", 1, true, chs "c"⟩, ⟨chs "p", 3, false, chs "p"⟩]
    tree := top [inp 0, inp 1, outp 2, blk 0, blk 1, blk 2]
    blocks := [cont (sl 3 1 1) (sl 1),
      comb (sq [ba (sl 3 0 0) (sl 0), ba (sl 3 2 2) (op 1 [pth 3 0 0, pth 3 1 1])]),
      cont (sl 2) (sl 3 2 2)] }

theorem inAndOut_dot : dotOf inAndOut = some (
    [(1, .port .input (chs "a")), (2, .port .input (chs "b")), (3, .port .output (chs "c")), (4, .asg),
     (5, .asg), (6, .asg), (7, .asg)],
    [⟨1, 5, some (chs "a", 0, 0)⟩, ⟨2, 4, some (chs "b", 0, 0)⟩, ⟨4, 6, some (chs "p", 1, 1)⟩,
     ⟨5, 6, some (chs "p", 0, 0)⟩, ⟨6, 7, some (chs "p", 2, 2)⟩, ⟨7, 3, some (chs "c", 0, 0)⟩]) := by
  decide +kernel

/-- `n = nq; n = n + 1;` and a register. tests/unit/BugTests.cpp:92-122. -/
def slang993 : Design' :=
  { sigs := [⟨chs "clk", 1, true, chs "clk"⟩, ⟨chs "nq", 32, true, chs "nq"⟩, ⟨chs "n", 32, false, chs "n"⟩]
    tree := top [inp 0, outp 1 32, blk 0, blk 1]
    blocks := [comb (sq [ba (sl 2 31) (sl 1 31), ba (sl 2 31) (op 32 [pth 2 31])]),
      .procedural .alwaysFF (.timed (.signalEvent ⟨.posEdge, some 0⟩)) (nba (sl 1 31) (sl 2 31))] }

theorem slang993_dot : dotOf slang993 = some (
    [(1, .port .input (chs "clk")), (2, .port .output (chs "nq")), (3, .asg), (4, .asg), (5, .asg),
     (6, .reg (chs "nq") 31 0)],
    [⟨1, 6, some (chs "clk", 0, 0)⟩, ⟨4, 4, some (chs "n", 31, 0)⟩, ⟨4, 5, some (chs "n", 31, 0)⟩,
     ⟨5, 6, some (chs "nq", 31, 0)⟩, ⟨6, 2, some (chs "nq", 31, 0)⟩, ⟨6, 3, some (chs "nq", 31, 0)⟩]) := by
  decide +kernel

/-- Truncation and zero extension. tests/unit/NetlistTests.cpp:93-120. -/
def annotation : Design' :=
  { sigs := [⟨chs "a", 8, true, chs "a"⟩, ⟨chs "b", 8, true, chs "b"⟩, ⟨chs "t", 5, false, chs "t"⟩]
    tree := top [inp 0 8, outp 1 8, blk 0, blk 1]
    blocks := [cont (sl 2 4) (.conv 5 false none (sl 0 7)),
      cont (sl 1 7) (.conv 8 false none (sl 2 1 0))] }

theorem annotation_dot : dotOf annotation = some (
    [(1, .port .input (chs "a")), (2, .port .output (chs "b")), (3, .asg), (4, .asg), (5, .asg),
     (6, .const (chs "6'b0"))],
    [⟨1, 3, some (chs "a", 7, 0)⟩, ⟨3, 4, some (chs "t", 1, 0)⟩, ⟨4, 2, some (chs "b", 1, 0)⟩,
     ⟨5, 2, some (chs "b", 7, 2)⟩, ⟨6, 5, none⟩]) := by
  decide +kernel

/-- `z <= a & t; t = a & b;` tests/unit/NonblockingAssignmentTests.cpp:3-29. -/
def nonblocking : Design' :=
  { sigs := [⟨chs "a", 1, true, chs "a"⟩, ⟨chs "b", 1, true, chs "b"⟩, ⟨chs "z", 1, true, chs "z"⟩, ⟨chs "t", 4, false, chs "t"⟩]
    tree := top [inp 0, inp 1, outp 2, blk 0]
    blocks := [comb (sq [nba (sl 2) (.conv 1 false none (op 4 [pth 0, pth 3 3])), ba (sl 3 3) (op 4 [pth 0, pth 1])])] }

theorem nonblocking_dot : dotOf nonblocking = some (
    [(1, .port .input (chs "a")), (2, .port .input (chs "b")), (3, .port .output (chs "z")), (4, .asg), (5, .asg)],
    [⟨1, 4, some (chs "a", 0, 0)⟩, ⟨1, 5, some (chs "a", 0, 0)⟩, ⟨2, 5, some (chs "b", 0, 0)⟩,
     ⟨4, 3, some (chs "z", 0, 0)⟩, ⟨5, 4, some (chs "t", 3, 0)⟩]) := by
  decide +kernel

/-- A port with two drivers. tests/unit/PortTests.cpp:24-64. -/
def internalPort : Design' :=
  { sigs := [⟨chs "baz", 2, false, chs "baz"⟩, ⟨chs "out", 2, true, chs "out"⟩, ⟨chs "in", 2, true, chs "in"⟩, ⟨chs "a", 1, false, chs "a"⟩, ⟨chs "b", 1, false, chs "b"⟩]
    tree := top [.inst false (chs "foo") (chs "m.u_foo") [.port ⟨101, some 1, .output, [⟨0, 0, false⟩, ⟨1, 0, false⟩]⟩, blk 0, blk 1]
        [⟨.port 101 (some 1), some (sl 0 1), true, true⟩],
      .inst false (chs "bar") (chs "m.u_bar") [inp 2 2, blk 2, blk 3]
        [⟨.port 102 (some 2), some (sl 0 1), false, true⟩]]
    blocks := [cont (sl 1 0 0) (k1 .zero),
      cont (sl 1 1 1) (k1 .one),
      cont (sl 3) (sl 2 0 0),
      cont (sl 4) (sl 2 1 1)] }

theorem internalPort_dot : dotOf internalPort = some (
    [(1, .port .output (chs "out")), (2, .port .output (chs "out")), (3, .port .input (chs "in")), (4, .asg),
     (5, .const (chs "1'b0")), (6, .asg), (7, .const (chs "1'b1")), (8, .asg), (9, .asg)],
    [⟨1, 3, some (chs "baz", 0, 0)⟩, ⟨2, 3, some (chs "baz", 1, 1)⟩, ⟨3, 8, some (chs "in", 0, 0)⟩,
     ⟨3, 9, some (chs "in", 1, 1)⟩, ⟨4, 1, some (chs "out", 0, 0)⟩, ⟨5, 4, none⟩,
     ⟨6, 2, some (chs "out", 1, 1)⟩, ⟨7, 6, none⟩]) := by
  decide +kernel

/-- A registered output with an asynchronous reset. tests/unit/PortTests.cpp:67-104. -/
def registered : Design' :=
  { sigs := [⟨chs "clk", 1, true, chs "clk"⟩, ⟨chs "rst", 1, true, chs "rst"⟩, ⟨chs "foo", 1, true, chs "foo"⟩, ⟨chs "foo_q", 1, true, chs "foo_q"⟩]
    tree := top [inp 0, inp 1, inp 2, outp 3, blk 0]
    blocks := [ff (ite (sl 1) (nba (sl 3) (kInt .zero)) (nba (sl 3) (sl 2))) [0, 1]] }

theorem registered_dot : dotOf registered = some (
    [(1, .port .input (chs "clk")), (2, .port .input (chs "rst")), (3, .port .input (chs "foo")),
     (4, .port .output (chs "foo_q")), (5, .cond), (6, .asg), (7, .const (chs "1'b0")), (8, .asg), (9, .merge),
     (10, .reg (chs "foo_q") 0 0)],
    [⟨1, 10, some (chs "clk", 0, 0)⟩, ⟨2, 5, some (chs "rst", 0, 0)⟩, ⟨2, 10, some (chs "rst", 0, 0)⟩,
     ⟨3, 8, some (chs "foo", 0, 0)⟩, ⟨5, 6, none⟩, ⟨5, 8, none⟩, ⟨6, 9, none⟩, ⟨7, 6, none⟩, ⟨8, 9, none⟩,
     ⟨8, 10, some (chs "foo_q", 0, 0)⟩, ⟨10, 4, some (chs "foo_q", 0, 0)⟩]) := by
  decide +kernel

/-- `always_ff @(posedge clk) b <= a;` tests/unit/SequentialStateTests.cpp:3-23. -/
def stateVar : Design' :=
  { sigs := [⟨chs "clk", 1, true, chs "clk"⟩, ⟨chs "a", 1, true, chs "a"⟩, ⟨chs "b", 1, false, chs "b"⟩]
    tree := top [inp 0, inp 1, blk 0]
    blocks := [.procedural .alwaysFF (.timed (.signalEvent ⟨.posEdge, some 0⟩)) (nba (sl 2) (sl 1))] }

theorem stateVar_dot : dotOf stateVar = some (
    [(1, .port .input (chs "clk")), (2, .port .input (chs "a")), (3, .asg), (4, .reg (chs "b") 0 0)],
    [⟨1, 4, some (chs "clk", 0, 0)⟩, ⟨2, 3, some (chs "a", 0, 0)⟩, ⟨3, 4, some (chs "b", 0, 0)⟩]) := by
  decide +kernel

/-- A register assigned on two paths. tests/unit/SequentialStateTests.cpp:26-63. -/
def twoPaths : Design' :=
  { sigs := [⟨chs "clk", 1, true, chs "clk"⟩, ⟨chs "rst", 1, true, chs "rst"⟩, ⟨chs "a", 1, true, chs "a"⟩, ⟨chs "b", 1, true, chs "b"⟩]
    tree := top [inp 0, inp 1, inp 2, outp 3, blk 0]
    blocks := [ff (ite (sl 1) (nba (sl 3) (k1 .zero)) (nba (sl 3) (sl 2))) [0, 1]] }

theorem twoPaths_dot : dotOf twoPaths = some (
    [(1, .port .input (chs "clk")), (2, .port .input (chs "rst")), (3, .port .input (chs "a")),
     (4, .port .output (chs "b")), (5, .cond), (6, .asg), (7, .const (chs "1'b0")), (8, .asg), (9, .merge),
     (10, .reg (chs "b") 0 0)],
    [⟨1, 10, some (chs "clk", 0, 0)⟩, ⟨2, 5, some (chs "rst", 0, 0)⟩, ⟨2, 10, some (chs "rst", 0, 0)⟩,
     ⟨3, 8, some (chs "a", 0, 0)⟩, ⟨5, 6, none⟩, ⟨5, 8, none⟩, ⟨6, 9, none⟩, ⟨7, 6, none⟩, ⟨8, 9, none⟩,
     ⟨8, 10, some (chs "b", 0, 0)⟩, ⟨10, 4, some (chs "b", 0, 0)⟩]) := by
  decide +kernel

/-- `b <= b + a;` tests/unit/SequentialStateTests.cpp:66-104. -/
def selfRef : Design' :=
  { sigs := [⟨chs "clk", 1, true, chs "clk"⟩, ⟨chs "rst", 1, true, chs "rst"⟩, ⟨chs "a", 1, true, chs "a"⟩, ⟨chs "b", 1, true, chs "b"⟩]
    tree := top [inp 0, inp 1, inp 2, outp 3, blk 0]
    blocks := [ff (ite (sl 1) (nba (sl 3) (k1 .zero)) (nba (sl 3) (op 1 [pth 3, pth 2]))) [0, 1]] }

theorem selfRef_dot : dotOf selfRef = some (
    [(1, .port .input (chs "clk")), (2, .port .input (chs "rst")), (3, .port .input (chs "a")),
     (4, .port .output (chs "b")), (5, .cond), (6, .asg), (7, .const (chs "1'b0")), (8, .asg), (9, .merge),
     (10, .reg (chs "b") 0 0)],
    [⟨1, 10, some (chs "clk", 0, 0)⟩, ⟨2, 5, some (chs "rst", 0, 0)⟩, ⟨2, 10, some (chs "rst", 0, 0)⟩,
     ⟨3, 8, some (chs "a", 0, 0)⟩, ⟨5, 6, none⟩, ⟨5, 8, none⟩, ⟨6, 9, none⟩, ⟨7, 6, none⟩, ⟨8, 9, none⟩,
     ⟨8, 10, some (chs "b", 0, 0)⟩, ⟨10, 4, some (chs "b", 0, 0)⟩, ⟨10, 8, some (chs "b", 0, 0)⟩]) := by
  decide +kernel

/-- A register read in the block that assigns it. tests/unit/SequentialStateTests.cpp:160-220. -/
def previous : Design' :=
  { sigs := [⟨chs "clk", 1, true, chs "clk"⟩, ⟨chs "rst", 1, true, chs "rst"⟩, ⟨chs "foo", 1, true, chs "foo"⟩, ⟨chs "ready", 1, true, chs "ready"⟩, ⟨chs "foo_q", 1, true, chs "foo_q"⟩, ⟨chs "valid_q", 1, false, chs "valid_q"⟩]
    tree := top [inp 0, inp 1, inp 2, inp 3, outp 4, blk 0]
    blocks := [.procedural .always (.timed (.signalEvent ⟨.posEdge, some 0⟩))
        (ite (sl 1) (sq [nba (sl 4) (kInt .zero), nba (sl 5) (kInt .zero)])
          (sq [ite (op 1 [pth 5]) (nba (sl 4) (sl 2)) .skip, nba (sl 5) (sl 3)]))] }

theorem previous_dot : dotOf previous = some (
    [(1, .port .input (chs "clk")), (2, .port .input (chs "rst")), (3, .port .input (chs "foo")),
     (4, .port .input (chs "ready")), (5, .port .output (chs "foo_q")), (6, .cond), (7, .asg),
     (8, .const (chs "1'b0")), (9, .asg), (10, .const (chs "1'b0")), (11, .cond), (12, .asg), (13, .merge),
     (14, .asg), (15, .merge), (16, .reg (chs "foo_q") 0 0), (17, .reg (chs "valid_q") 0 0)],
    [⟨1, 16, some (chs "clk", 0, 0)⟩, ⟨1, 17, some (chs "clk", 0, 0)⟩, ⟨2, 6, some (chs "rst", 0, 0)⟩,
     ⟨3, 12, some (chs "foo", 0, 0)⟩, ⟨4, 14, some (chs "ready", 0, 0)⟩, ⟨6, 7, none⟩, ⟨6, 11, none⟩,
     ⟨8, 7, none⟩, ⟨9, 15, none⟩, ⟨10, 9, none⟩, ⟨11, 12, none⟩, ⟨11, 13, none⟩, ⟨11, 14, none⟩,
     ⟨12, 13, none⟩, ⟨12, 16, some (chs "foo_q", 0, 0)⟩, ⟨14, 15, none⟩, ⟨14, 17, some (chs "valid_q", 0, 0)⟩,
     ⟨16, 5, some (chs "foo_q", 0, 0)⟩, ⟨17, 11, some (chs "valid_q", 0, 0)⟩]) := by
  decide +kernel

/-- An interface with modports. tests/unit/InterfaceTests.cpp:3-37. -/
def modports : Design' :=
  { sigs := [⟨chs "l", 1, false, chs "l"⟩, ⟨chs "l", 1, false, chs "l"⟩, ⟨chs "l", 1, false, chs "l"⟩, ⟨chs "x", 1, false, chs "x"⟩]
    design := fun D => { D with
      kind := fun n => if n = 1 ∨ n = 2 then .modportPort else .other
      iface := fun n _ => if n = 1 ∨ n = 2 then [(0, ⟨0, 0⟩)] else [] }
    tree := top [.inst false (chs "I") (chs "top.i") [.variable 0 true [(0, 0)]] [],
      .inst false (chs "m") (chs "top.u_m") [blk 0]
        [⟨.interface, none, false, true⟩],
      .inst false (chs "n") (chs "top.u_n") [blk 1]
        [⟨.interface, none, false, true⟩]]
    blocks := [cont (sl 3) (sl 1),
      cont (sl 2) (kInt .one)] }

theorem modports_dot : dotOf modports = some (
    [(1, .var (chs "l")), (2, .asg), (3, .asg), (4, .const (chs "1'b1"))],
    [⟨1, 2, some (chs "l", 0, 0)⟩, ⟨3, 1, some (chs "l", 0, 0)⟩, ⟨4, 3, none⟩]) := by
  decide +kernel

end Verif.Conform

import Verif.Model.Dot
import Verif.Model.Elab
import Verif.Model.Lookup
import Verif.Model.Queries

/-!
What is needed to run the model on the designs of the project's unit tests. What slang computes is
entered: bit ranges and widths, the drivers of ports, the values of constants, and loops are unrolled.
Hash maps are traversed in the order of insertion.
-/
namespace Verif.Conform
open Verif.Model

/-- The characters of a string literal. -/
scoped macro "chs " s:str : term => do
  let cs := s.getString.toList.map fun c => Lean.Syntax.mkCharLit c
  `([$cs.toArray,*])

/-- A signal: its name, its width, whether it is a port, and its hierarchical path. -/
structure Sg where
  name : Str
  width : Nat := 1
  port : Bool := false
  path : Str := name

/-- The signals of a design are numbered in order; the port of signal `n` is symbol `100 + n`. -/
def mkDesign (ss : List Sg) : Design where
  ref n := ⟨((ss[n]?).map Sg.name).getD [], ((ss[n]?).map Sg.path).getD [], {}⟩
  kind _ := .other
  width n := (ss[n % 100]?).map Sg.width |>.getD 0
  port n := if ((ss[n]?).map Sg.port).getD false then some (100 + n) else none
  iface _ _ := []

def digit : LBit → Char
  | .zero => '0' | .one => '1' | .x => 'x' | .z => 'z'

/-- How slang prints a small integer constant, from its bits, least significant first. -/
def showBits (bs : List LBit) : Str :=
  let ds := (bs.reverse.map digit).dropWhile (· = '0')
  Nat.toDigits 10 bs.length ++ ['\'', 'b'] ++ if ds = [] then ['0'] else ds

/-- Expressions are told apart by their lowest bit, which is enough for the modport ports of the tests. -/
def mkEnv (D : Design) (o : BuildOpts := {}) : TravEnv := ⟨D, o, LspPath.lo, showBits⟩

/-- A module: its signals, its members, and the text of its blocks; `blk k` stands for block `k`. -/
structure Design' where
  sigs : List Sg
  design : Design → Design := id
  opts : BuildOpts := {}
  autos : List Nat := []
  tree : List Member
  blocks : List SDeferred

def blk (k : Nat) : Member := .block (.continuous ⟨0, k, 0⟩ (.legacy []))

def textOf (bs : List SDeferred) : Deferred → SDeferred
  | .continuous l _ => (bs[l.line]?).getD (.procedural .alwaysComb .other .skip)
  | _ => .procedural .alwaysComb .other .skip

/-- The netlist of a design. -/
def build (d : Design') : Except Fault NetGraph :=
  netlistOf (mkEnv (d.design (mkDesign d.sigs)) d.opts) (fun n => d.autos.contains n) atLoc Tracker.slots
    ⟨d.tree, textOf d.blocks⟩

/-- The netlist with the paths of the black boxes recorded by the traversal. -/
def buildBoxed (d : Design') : Except Fault NetGraph :=
  match build d, phase1 (mkEnv (d.design (mkDesign d.sigs)) d.opts) d.tree with
  | .ok net, .ok c => .ok { net with blackBoxes := c.boxes }
  | .error e, _ => .error e
  | _, .error e => .error e

/-- An input port and an output port with one driver of all bits. -/
def inp (n : Nat) (w : Nat := 1) : Member := .port ⟨100 + n, some n, .input, [⟨0, w - 1, true⟩]⟩
def outp (n : Nat) (w : Nat := 1) : Member := .port ⟨100 + n, some n, .output, [⟨0, w - 1, false⟩]⟩

/-- The bits `lo` to `hi` of signal `n`, as a path and as an expression. -/
def pth (n : Nat) (hi : Nat := 0) (lo : Nat := 0) : LspPath := ⟨some n, lo, hi - lo⟩
def sl (n : Nat) (hi : Nat := 0) (lo : Nat := 0) : SExpr := .lsp (hi - lo + 1) (pth n hi lo) []

/-- A constant of one bit, written as such or converted from `int`. -/
def k1 (b : LBit) : SExpr := .other 1 (some [b]) []
def kInt (b : LBit) : SExpr := .conv 1 false (some [b]) (.other 32 (some (b :: List.replicate 31 .zero)) [])

/-- An operator. -/
def op (w : Nat) (ps : List LspPath) : SExpr := .other w none ps

def asg (l r : SExpr) : SAsg := { loc := {}, origin := {}, lhs := l, rhs := r }
def cont (l r : SExpr) : SDeferred := .continuous (asg l r)
def ba (l r : SExpr) : SStmt := .assign true (asg l r)
def nba (l r : SExpr) : SStmt := .assign false (asg l r)
def ite (c : SExpr) (s t : SStmt) : SStmt := .cond false {} [c] (.choose true s t)
def sq : List SStmt → SStmt
  | [] => .skip
  | [s] => s
  | s :: ss => .seq s (sq ss)
def comb (s : SStmt) : SDeferred := .procedural .alwaysComb .other s
def ff (s : SStmt) (es : List Nat) : SDeferred :=
  .procedural .alwaysFF (.timed (.eventList (es.map fun n => some ⟨.posEdge, some n⟩))) s
def top (ms : List Member) : List Member := [.inst false ['m'] ['m'] ms []]

/-- The checks of the tests (tests/unit/Test.hpp:71-127): paths between the first nodes with two names,
combinational paths, the number of drivers of a range, a driver with a given path, different first drivers;
and those that single tests make by other means. -/
inductive Chk where
  | path (a b : Str) (holds : Bool)
  | comb (a b : Str) (holds : Bool)
  | atLeast (a : Str) (hi lo : Int) (n : Nat)
  | exactly (a : Str) (hi lo : Int) (n : Nat)
  | named (a : Str) (hi lo : Int) (d : Str) (holds : Bool)
  | distinct (a : Str) (hi lo : Int) (b : Str) (hi' lo' : Int)
  /-- The number of nodes; more nodes; no edges; the nodes of a kind. -/
  | nodes (n : Nat)
  | moreNodes (n : Nat)
  | noEdges
  | kinds (k : NodeKind) (n : Nat)
  /-- The constants: their widths, printed values and numbers of edges. -/
  | consts (l : List (Nat × Str))
  /-- The combinational loops: how many nodes and how many assignments they have. -/
  | loops (n : Nat)
  | loop (n assigns : Nat)
  /-- The names in a fan-out or fan-in include these and not those; it is only the node itself. -/
  | fanOut (a : Str) (ins outs : List Str)
  | fanIn (a : Str) (ins outs : List Str)
  | fanOutSelf (a : Str)
  | fanInSelf (a : Str)
  /-- The ranges of the bit drivers; their drivers are different. -/
  | bits (a : Str) (hi lo : Int) (l : List (Int × Int))
  /-- Edges between nodes with given paths, the second a state, of a given kind (SequentialStateTests.cpp:226-250). -/
  | clocked (a b : Str) (k : EdgeKind) (n : Nat)
  /-- Some edge of a kind into a state with a path; no state and no edge of a kind. -/
  | someClock (b : Str) (k : EdgeKind)
  | noClock
  /-- What changes the registers after a node, or the register with a name. -/
  | sources (a : Str) (l : List (Str × EdgeKind))
  | stateSources (a : Str) (l : List (Str × EdgeKind))
  /-- Lookup by name; by name and range; by pattern. -/
  | absent (a : Str)
  | range (a : Str) (hi lo : Int) (l : List NodeKind)
  | found (p : Str) (n : Nat)
  | foundAtLeast (p : Str) (n : Nat)
  | ports (a : Str) (dir : ArgDir) (w : Nat)
  /-- Edges from the first node with a name to the first node of a kind. -/
  | edgesTo (a : Str) (k : NodeKind) (n : Nat)
  /-- Black boxes: the paths; the coverage of a node, with paths added. -/
  | boxes (l : List Str)
  | cover (a : Str) (c : Coverage)
  | coverWith (box a : Str) (c : Coverage)
  | coverKind (k : NodeKind) (c : Coverage)

def first (net : NetGraph) (a : Str) : Option Nat := ({ net := net } : Session).lookup a

/-- tests/unit/Test.hpp:71-80, 88-97. -/
def pathWith (net : NetGraph) (find : Nat → Nat → Option (List Nat)) (a b : Str) : Option Bool :=
  match first net a, first net b with
  | some m, some n => (find m n).map fun p => !p.isEmpty
  | _, _ => some false

def namesOf (net : NetGraph) (ns : List Nat) : List Str := ns.filterMap fun n => (net.data n).path

def fanOk (net : NetGraph) (fan : Nat → List Nat) (a : Str) (ins outs : List Str) : Bool :=
  match first net a with
  | none => false
  | some n => ins.all (fun x => (namesOf net (fan n)).contains x) && outs.all fun x => !(namesOf net (fan n)).contains x

def srcsOk (net : NetGraph) (n : Option Nat) (l : List (Str × EdgeKind)) : Bool :=
  match n with
  | none => false
  | some n =>
    let s := (sensitivity net n).map fun x => ((net.data x.1).path, x.2)
    s.length == l.length && l.all fun x => s.contains (some x.1, x.2)

def foundBy (net : NetGraph) (p : Str) : Nat :=
  (({ net := net } : Session).findNodes fun s => match glob s p with | .ok b => b | .error _ => false).length

/-- Does a check succeed? (tests/unit/Test.hpp:71-127) -/
def Chk.eval (net : NetGraph) : Chk → Bool
  | .path a b h => pathWith net (findPath net) a b == some h
  | .comb a b h => pathWith net (findComb net) a b == some h
  | .atLeast a hi lo n => n ≤ (getDrivers net a ⟨lo, hi⟩).length
  | .exactly a hi lo n => (getDrivers net a ⟨lo, hi⟩).length == n
  | .named a hi lo d h => ((getDrivers net a ⟨lo, hi⟩).any fun n => (net.data n).path == some d) == h
  | .distinct a hi lo b hi' lo' => (getDrivers net a ⟨lo, hi⟩).head? != (getDrivers net b ⟨lo', hi'⟩).head?
  | .nodes n => net.g.nodes.length == n
  | .moreNodes n => n < net.g.nodes.length
  | .noEdges => net.g.nodes.all fun n => (net.g.obj n).outE.isEmpty
  | .kinds k n => (net.g.nodes.filter fun x => net.kind x == k).length == n
  | .consts l => (net.g.nodes.filterMap fun x =>
      match net.data x with | .constant v w _ => some (w, v) | _ => none) == l
  | .loops n => (combLoops net).length == n
  | .loop n k => (combLoops net).map (fun c => (c.length, (c.filter fun x => net.kind x == .assignment).length)) == [(n, k)]
  | .fanOut a i o => fanOk net (combFanOut net) a i o
  | .fanIn a i o => fanOk net (combFanIn net) a i o
  | .fanOutSelf a => match first net a with | none => false | some n => combFanOut net n == [n]
  | .fanInSelf a => match first net a with | none => false | some n => combFanIn net n == [n]
  | .bits a hi lo l => (getBitDrivers net a ⟨lo, hi⟩).map (fun d => (d.bounds.lower, d.bounds.upper)) == l
      && ((getBitDrivers net a ⟨lo, hi⟩).map BitDriver.driver).eraseDups.length == l.length
  | .clocked a b k n => ((net.g.nodes.filter fun x => (net.data x).path == some a).flatMap fun x =>
      (net.g.obj x).outE.filter fun e => net.kind e.tgt == .state && (net.data e.tgt).path == some b
        && (net.attr e.id).edgeKind == k).length == n
  | .someClock b k => net.g.nodes.any fun x => net.kind x == .state && (net.data x).path == some b
      && (net.g.obj x).inE.any fun e => (net.attr e.id).edgeKind == k
  | .noClock => net.g.nodes.all fun x => net.kind x != .state
      && (net.g.obj x).outE.all fun e => (net.attr e.id).edgeKind == .none
  | .sources a l => srcsOk net (first net a) l
  | .stateSources a l => srcsOk net (net.g.nodes.find? fun x => net.kind x == .state && (net.data x).path == some a) l
  | .absent a => (first net a).isNone
  | .range a hi lo l => (({ net := net } : Session).lookupRange a ⟨lo, hi⟩).map net.kind == l
  | .found p n => foundBy net p == n
  | .foundAtLeast p n => n ≤ foundBy net p
  | .ports a dir w => (first net a).map net.kind == some .port &&
      let ps := (({ net := net } : Session).lookupRange a ⟨0, w - 1⟩).map net.data
      (ps.all fun | .port _ p _ d _ => p == a && d == dir | _ => false)
        && (List.range w).all fun b => ps.any fun
          | .port _ _ _ _ r => decide (r.lower ≤ b) && decide ((b : Int) ≤ r.upper)
          | _ => false
  | .edgesTo a k n => match first net a, net.g.nodes.find? fun x => net.kind x == k with
    | some x, some y => ((net.g.obj x).outE.filter fun e => e.tgt == y).length == n
    | _, _ => false
  | .boxes l => net.blackBoxes == l
  | .cover a c => match first net a with | none => false | some n => coverage net n == some c
  | .coverWith box a c => match first net a with
    | none => false
    | some n => coverage { net with blackBoxes := net.blackBoxes ++ [box] } n == some c
  | .coverKind k c => net.g.nodes.all fun n => net.kind n != k || coverage net n == some c

/-- Does the netlist of a design pass the checks? -/
def meets (d : Design') (cs : List Chk) : Bool :=
  match buildBoxed d with
  | .error _ => false
  | .ok net => cs.all (Chk.eval net)

end Verif.Conform

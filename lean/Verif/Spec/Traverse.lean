import Verif.Model.Traverse
import Verif.Spec.Glob
import Verif.Spec.Bits
import Verif.Spec.Build

/-!
What the traversal of a design comes to: an ordered list of events, without graph, tables or
recursion over scopes afterwards.
-/
namespace Verif.Spec
open Verif.Model

/-- An instance is black-boxed: some pattern matches the name of its definition or its path. -/
def Boxed (pats : List Str) (defName path : Str) : Prop :=
  ∃ p ∈ pats, Matches (pieces (visible p)) (visible defName) ∨ Matches (pieces (visible p)) (visible path)

/-- `boxed` tells which instances are black-boxed. -/
def DecidesBoxes (pats : List Str) (boxed : Str → Str → Bool) : Prop :=
  ∀ d p, boxed d p = true ↔ Boxed pats d p

/-- What is met on the way through a design. -/
inductive Event where
  | port (p : PortDecl)
  | variable (sym : Nat) (drivers : List (Nat × Nat))
  | block (b : Deferred)
  | box (path : Str)
  | cuts (k : Conn)
  | connect (k : Conn)

/-- The ports among the members of a scope. -/
def portsOf : List Member → List PortDecl
  | [] => []
  | .port p :: ms => p :: portsOf ms
  | _ :: ms => portsOf ms

mutual
/-- The events of a member: uninstantiated scopes are passed over, of a black-boxed instance only the
ports count, the connections of an instance come after its body and their cuts before it. -/
def events (boxed : Str → Str → Bool) (propCuts : Bool) : Member → List Event
  | .port p => [.port p]
  | .variable sym inInterface ds => if inInterface then [.variable sym ds] else []
  | .block b => [.block b]
  | .group uninst ms => if uninst then [] else eventsAll boxed propCuts ms
  | .inst uninst defName path ms conns =>
    if uninst then []
    else
      (if propCuts then conns.map .cuts else []) ++
        ((if boxed defName path then .box path :: (portsOf ms).map .port
          else eventsAll boxed propCuts ms) ++ conns.map .connect)

/-- The events of several members, one after the other. -/
def eventsAll (boxed : Str → Str → Bool) (propCuts : Bool) : List Member → List Event
  | [] => []
  | m :: ms => events boxed propCuts m ++ eventsAll boxed propCuts ms
end

/-- The blocks met. -/
def blocksOf : List Event → List Deferred
  | [] => []
  | .block b :: es => b :: blocksOf es
  | _ :: es => blocksOf es

/-- The paths of the black-boxed instances met. -/
def boxesOf : List Event → List Str
  | [] => []
  | .box p :: es => p :: boxesOf es
  | _ :: es => boxesOf es

/-- The symbol that gets nodes. -/
def declares : Event → List Nat
  | .port p => [p.sym]
  | .variable sym _ => [sym]
  | _ => []

/-- What slang guarantees: drivers lie inside the width of the port or variable, and the widths of
expressions follow the language rules. Connections of multi-ports are left out (see
`multi_port_faults`). -/
def EventOk (D : Design) : Event → Prop
  | .port p => ∀ d ∈ p.drivers, d.hi < D.width p.sym
  | .variable sym ds => ∀ d ∈ ds, d.1 + d.2 < D.width sym
  | .connect k => k.formal ≠ .multi ∧ ∀ e, k.actual = some e → WT (fun _ => none) e
  | _ => True

/-- Bit `j` of the port's internal symbol `x` is driven. -/
def HasBit (p : PortDecl) (x j : Nat) : Prop :=
  p.inner = some x ∧ ∃ d ∈ p.drivers, d.lo ≤ j ∧ j ≤ d.hi

/-- Bit `j` of the port's internal symbol `x` is driven by the port as an input. -/
def Supplies (p : PortDecl) (x j : Nat) : Prop :=
  p.inner = some x ∧ ∃ d ∈ p.drivers, d.input = true ∧ d.lo ≤ j ∧ j ≤ d.hi

/-- `p` is the last port met that drives bit `j` of `x` as an input. -/
def LastSupply (es : List Event) (x j : Nat) (p : PortDecl) : Prop :=
  ∃ pre post, es = pre ++ .port p :: post ∧ Supplies p x j ∧ ∀ q, .port q ∈ post → ¬ Supplies q x j

/-- The connection of port `sym` with `e` is resolved bit by bit: this is enabled, both types are
integral and the widths agree. -/
def BitWise (opts : BuildOpts) (D : Design) (k : Conn) (sym : Nat) (e : SExpr) : Prop :=
  opts.resolveBits = true ∧ k.integral = true ∧ D.width sym = e.width

/-- The connection ties bit `j` of port `sym` to bit `q` of signal `y`: bit by bit through the
actual, or else every bit to everything in the actual. -/
def Ties (opts : BuildOpts) (D : Design) (k : Conn) (sym j y q : Nat) : Prop :=
  (∃ i, k.formal = .port sym i) ∧ ∃ e, k.actual = some e ∧
    ((BitWise opts D k sym e ∧ Routes e j y q) ∨ (¬ BitWise opts D k sym e ∧ AnyCovers e.paths y q))

/-- The actual selects statically if it is resolved bit by bit, and an output is connected to a left
side. -/
def Simple (opts : BuildOpts) (D : Design) (k : Conn) : Prop :=
  ∀ sym i e, k.formal = .port sym i → k.actual = some e → BitWise opts D k sym e →
    Static e ∧ (k.output = true → Lvalue e)

/-- Nothing in the actual is taken as a whole. -/
def Direct (opts : BuildOpts) (D : Design) (k : Conn) : Prop :=
  ∀ sym i e, k.formal = .port sym i → k.actual = some e → BitWise opts D k sym e → Aligned e

/-- The data of a node made for an event. -/
def Makes (D : Design) : Event → NodeData → Prop
  | .port p, d => ∃ (x : Nat) (b : BitRange), p.inner = some x ∧ b.left ≤ b.right ∧
      (∃ r ∈ p.drivers, (r.lo : Int) ≤ b.left ∧ b.right ≤ r.hi) ∧
      d = .port (D.ref x).name (D.ref x).path (D.ref x).loc p.dir b
  | .variable sym ds, d => ∃ r ∈ ds,
      d = .variable (D.ref sym).name (D.ref sym).path (D.ref sym).loc ⟨r.1, (r.1 : Int) + r.2⟩
  | .connect k, d => k.output = false ∧ ∃ v w, d = .constant v w {}
  | _, _ => False

/-- Node `n` is a port node of the declaration `p` with bit `j` of its internal symbol. -/
def PortNode (D : Design) (net : NetGraph) (p : PortDecl) (j n : Nat) : Prop :=
  n ∈ net.g.nodes ∧ ∃ (x : Nat) (b : BitRange), p.inner = some x ∧ InRng b j ∧
    net.data n = .port (D.ref x).name (D.ref x).path (D.ref x).loc p.dir b

/-- What is assumed of an elaborated design: `boxed` tells the black boxes, what slang guarantees
holds for everything met, and no port or variable is met twice. -/
structure Elaborated (E : TravEnv) (boxed : Str → Str → Bool) (top : List Member) : Prop where
  boxes : DecidesBoxes E.opts.boxes boxed
  ok : ∀ ev ∈ eventsAll boxed E.opts.propCuts top, EventOk E.D ev
  once : ((eventsAll boxed E.opts.propCuts top).flatMap declares).Nodup

/-- Member `m` is met in the scope: it is a member, or is met in a generate block, in an array, or in
an instance that is not black-boxed. -/
inductive Met (boxed : Str → Str → Bool) : List Member → Member → Prop
  | here {ms : List Member} {m : Member} : m ∈ ms → Met boxed ms m
  | group {ms l : List Member} {m : Member} : .group false l ∈ ms → Met boxed l m → Met boxed ms m
  | inst {ms l : List Member} {d p : Str} {ks : List Conn} {m : Member} : .inst false d p l ks ∈ ms →
    boxed d p = false → Met boxed l m → Met boxed ms m

/-- Port `p` is met before connection `k`. -/
def Before (es : List Event) (p : PortDecl) (k : Conn) : Prop :=
  ∃ l1 l2 l3, es = l1 ++ .port p :: (l2 ++ .connect k :: l3)

/-- The signal has no node of its own: it is not a port symbol or an interface variable, and no
edge-triggered block writes it. -/
def Bare (es : List Event) (y : Nat) : Prop :=
  (∀ ev ∈ es, y ∉ declares ev) ∧ ∀ b ∈ blocksOf es, Clocked b → ∀ w ∈ allWrites b.stmt, w.sym ≠ y

/-- No port drives bit `q` of `y` as an input. -/
def Unsupplied (es : List Event) (y q : Nat) : Prop := ∀ p, .port p ∈ es → ¬ Supplies p y q

/-- Some driver of the port includes the bits `lo` to `hi` of its internal symbol, and no registered
cut lies between them. -/
def Spans (E : TravEnv) (cuts : CutReg) (p : PortDecl) (x : Nat) (lo hi : Int) : Prop :=
  p.inner = some x ∧ lo ≤ hi ∧ (∃ d ∈ p.drivers, (d.lo : Int) ≤ lo ∧ hi ≤ d.hi) ∧
    (E.opts.propCuts = true → ∀ l, cuts x = some l → ∀ k ∈ l, ¬ (lo < (k : Int) ∧ (k : Int) ≤ hi))

mutual
/-- A boundary at position `k` of an actual: operands of a concatenation join there, or a selected
signal is cut there, when `C` tells the cuts of signals. Other forms are left out. -/
def Bound (C : Nat → Nat → Prop) : SExpr → Nat → Prop
  | .lsp _ p _, k => ∃ y m, p.root = some y ∧ C y m ∧ p.lo < m ∧ m ≤ p.hi ∧ k = m - p.lo
  | .concat w ops, k => w = (ops.map SExpr.width).sum ∧ BoundOps C ops k
  | _, _ => False

/-- The same for the operands of a concatenation, listed most significant first. -/
def BoundOps (C : Nat → Nat → Prop) : List SExpr → Nat → Prop
  | [], _ => False
  | e :: es, k => (es ≠ [] ∧ 0 < e.width ∧ k = (es.map SExpr.width).sum) ∨ BoundOps C es k ∨
      ∃ k', Bound C e k' ∧ k = (es.map SExpr.width).sum + k'
end

/-- The path `p` is an operand of the expression and begins at its bit `off`: it is the expression, or
an operand of an operand of a concatenation. -/
inductive Operand : SExpr → Nat → LspPath → Prop
  | path {p : LspPath} : Operand (.lsp (p.extra + 1) p []) 0 p
  | part {w : Nat} {pre post : List SExpr} {e : SExpr} {off : Nat} {p : LspPath} : Operand e off p →
    Operand (.concat w (pre ++ e :: post)) ((post.map SExpr.width).sum + off) p

/-- The connection of port `p` reads the range `bd` of `y`, and no less, for bit `j` of the port: it takes
the signals of the actual as they are selected, or the range is an operand that begins at bit `off`, and
neither the drivers of the port nor the cuts of its internal symbol divide it. -/
def TakesAll (E : TravEnv) (cuts : CutReg) (p : PortDecl) (k : Conn) (j y : Nat) (bd : BitRange) : Prop :=
  ∃ e, k.actual = some e ∧
    ((¬ BitWise E.opts E.D k p.sym e ∧ ∃ a ∈ e.paths, a.root = some y ∧ bd = ⟨a.lo, a.hi⟩) ∨
      (BitWise E.opts E.D k p.sym e ∧ ∃ off a, Operand e off a ∧ a.root = some y ∧ bd = ⟨a.lo, a.hi⟩ ∧ off ≤ j ∧
        j ≤ off + a.extra ∧
        (∀ d ∈ p.drivers, d.hi < off ∨ off + a.extra < d.lo ∨ (d.lo ≤ off ∧ off + a.extra ≤ d.hi)) ∧
        (E.opts.propCuts = true → ∀ x l, p.inner = some x → cuts x = some l → ∀ m ∈ l, ¬ (off < m ∧ m ≤ off + a.extra))))

/-- Signal `x` is cut at bit `b`: a connection met puts a boundary of its actual there. The events are
listed last to first, so that the cuts of the actual's signals are those met earlier. -/
def CutIn (D : Design) : List Event → Nat → Nat → Prop
  | [], _, _ => False
  | .cuts k :: es, x, b => CutIn D es x b ∨ ∃ sym e, k.formal = .port sym (some x) ∧ k.actual = some e ∧
      k.integral = true ∧ D.width sym = e.width ∧ 0 < b ∧ b < D.width x ∧ Bound (CutIn D es) e b
  | _ :: es, x, b => CutIn D es x b

/-- What is assumed of a design to be built: the ranges of all recordings and writes are aligned
(`Plain`), some path leads through each block, event lists are plain, and no block assigns to a port
symbol (it assigns to the internal symbol). -/
structure Buildable (E : TravEnv) (boxed : Str → Str → Bool) (ord : Tracker → List (Nat × Nat))
    (top : List Member) : Prop where
  design : Elaborated E boxed top
  plain : ∀ c, phase1 E top = .ok c → Plain (designWrites c.hist c.blocks)
  live : ∀ b ∈ blocksOf (eventsAll boxed E.opts.propCuts top), live b.stmt = true
  events : ∀ b ∈ blocksOf (eventsAll boxed E.opts.propCuts top), PlainEvents b
  visits : Visits ord
  ports : ∀ p, .port p ∈ eventsAll boxed E.opts.propCuts top →
    ∀ b ∈ blocksOf (eventsAll boxed E.opts.propCuts top), ∀ w ∈ allWrites b.stmt, w.sym ≠ p.sym

/-- The connection ties bit `j` of port `p` to bit `q` of `y`, comes after the port, and is simple. -/
def Tied (E : TravEnv) (es : List Event) (p : PortDecl) (k : Conn) (j y q : Nat) : Prop :=
  Before es p k ∧ Simple E.opts E.D k ∧ Ties E.opts E.D k p.sym j y q

/-- Bit `q` of `y` enters an instance and is bit `j` of `x` inside. -/
def Enters (E : TravEnv) (es : List Event) (y q x j : Nat) : Prop :=
  ∃ p k, k.output = false ∧ Tied E es p k j y q ∧ LastSupply es x j p ∧ E.D.kind y ≠ .modportPort ∧
    Bare es y

/-- Bit `q` of `y` is bit `r` of `z` some levels down. -/
inductive Down (E : TravEnv) (es : List Event) : Nat → Nat → Nat → Nat → Prop
  | refl (y q : Nat) : Down E es y q y q
  | step {y q x j z r : Nat} : Enters E es y q x j → Down E es x j z r → Down E es y q z r

/-- Bit `j` of `x`, which is driven together with bits `lo` to `hi` of `x` at most, leaves the instance
through port `p` and connection `k` as bit `q` of `y`. The connection drives the bits `lo'` to `hi'` of
`y` at most. If it is driven by a connection inside (`prev`), the port comes before that. -/
def Exits (E : TravEnv) (es : List Event) (cuts : CutReg) (prev : Option Conn) (k : Conn) (x : Nat)
    (lo hi : Int) (j y : Nat) (lo' hi' : Int) (q : Nat) : Prop :=
  ∃ p, k.output = true ∧ Tied E es p k j y q ∧ Direct E.opts E.D k ∧ Unsupplied es y q ∧
    E.D.port x = some p.sym ∧ Spans E cuts p x lo hi ∧ lo ≤ j ∧ (j : Int) ≤ hi ∧
    (∀ j' q' : Nat, j' < E.D.width p.sym → Ties E.opts E.D k p.sym j' y q' → lo' ≤ q' ∧ (q' : Int) ≤ hi') ∧
    ∀ k0, prev = some k0 → Before es p k0

/-- Bit `j` of `x` is bit `q` of `y` one or more levels up. -/
inductive Up (E : TravEnv) (es : List Event) (cuts : CutReg) :
    Option Conn → Nat → Int → Int → Nat → Nat → Nat → Prop
  | one {prev : Option Conn} {k : Conn} {x y : Nat} {lo hi lo' hi' : Int} {j q : Nat} :
    Exits E es cuts prev k x lo hi j y lo' hi' q → Up E es cuts prev x lo hi j y q
  | more {prev : Option Conn} {k : Conn} {x u y : Nat} {lo hi lo' hi' : Int} {j q r : Nat} :
    Exits E es cuts prev k x lo hi j u lo' hi' q → Up E es cuts (some k) u lo' hi' q y r →
      Up E es cuts prev x lo hi j y r

/-- Bit `j` of `x` is, as block `b` leaves it, bit `q` of `y`: the same bit, if the block is not
edge-triggered, or some levels up. -/
def Arrives (E : TravEnv) (es : List Event) (cuts : CutReg) (b : Deferred) (x j y q : Nat) : Prop :=
  (¬ Clocked b ∧ y = x ∧ q = j) ∨
    ∃ lo hi : Int, (∀ w ∈ allWrites b.stmt, w.sym = x → InRng w.bounds j → lo ≤ w.bounds.lower ∧ w.bounds.upper ≤ hi) ∧
      Up E es cuts none x lo hi j y q

end Verif.Spec

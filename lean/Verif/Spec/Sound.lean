import Verif.Spec.Traverse

/-!
Which edges a netlist may have, read off the events of a design: without graph, driver maps, queues
or tables. Nodes are described by their data.
-/
namespace Verif.Spec
open Verif.Model

/-! ### Inside a block -/

/-- The data of a conditional or case. -/
def branchData (isCase : Bool) (loc : TextLoc) : NodeData :=
  if isCase then .case loc else .conditional loc

/-- What reads belong to after a statement, if it is one of `M` before: the last assignment,
conditional or case, or a merge of two of them. -/
def marks (M : NodeData → Prop) : Stmt → NodeData → Prop
  | .skip | .reads _ => M
  | .assign loc _ a => fun d => (∃ l, (asgLocs loc a).getLast? = some l ∧ d = .assignment l) ∨ (¬ MakesNode a ∧ M d)
  | .branch k loc => fun d => d = branchData k loc
  | .dead => fun _ => False
  | .seq s t => marks (marks M s) t
  | .choose _ s t => fun d => marks M s d ∨ marks M t d ∨ d = .merge

/-- The open condition after a statement, if it is one of `C` before: a conditional or case with no
assignment after it, or a merge of two of them. -/
def conds (C : NodeData → Prop) : Stmt → NodeData → Prop
  | .skip | .reads _ => C
  | .assign _ _ a => fun d => ¬ MakesNode a ∧ C d
  | .branch k loc => fun d => d = branchData k loc
  | .dead => fun _ => False
  | .seq s t => conds (conds C s) t
  | .choose _ s t => fun d => conds C s d ∨ conds C t d ∨ d = .merge

/-- `Touches M P st d r Q`: the statement, entered after the writes `P` and where reads belong to one
of `M`, contains a read of `r` that belongs to `d`, and `Q` are the writes before it, in the text but
not in another alternative. Writes of the same assignment, up to those of the same segment, count as
earlier, some of them are made before its reads (see `self_assignment_reads_itself`). Unlike `Use` this includes reads without a
conditional before them, which belong to whatever came last. -/
inductive Touches : (NodeData → Prop) → (Wr → Prop) → Stmt → NodeData → Ref → (Wr → Prop) → Prop
  | reads {M : NodeData → Prop} {P : Wr → Prop} {rs : List Ref} {d : NodeData} {r : Ref} :
    r ∈ rs → r.auto = false → M d → Touches M P (.reads rs) d r P
  | note {M : NodeData → Prop} {P : Wr → Prop} {loc : TextLoc} {b : Bool} {notes : List Note} {r : Ref} :
    ⟨false, r⟩ ∈ notes → r.auto = false → Touches M P (.assign loc b (.legacy notes)) (.assignment loc) r
      (fun w => P w ∨ w ∈ asgWrites loc b (.legacy notes))
  | seg {M : NodeData → Prop} {P : Wr → Prop} {loc : TextLoc} {b : Bool} {segs as bs : List DSeg}
      {g : DSeg} {x : RSrc} {r : Ref} : segs = as ++ g :: bs → x ∈ g.rhs → SrcReads x r →
    Touches M P (.assign loc b (.aligned segs)) (.assignment g.loc) r
      (fun w => P w ∨ w ∈ asgWrites loc b (.aligned (as ++ [g])))
  | left {M : NodeData → Prop} {P Q : Wr → Prop} {s t : Stmt} {d : NodeData} {r : Ref} :
    Touches M P s d r Q → Touches M P (.seq s t) d r Q
  | right {M : NodeData → Prop} {P Q : Wr → Prop} {s t : Stmt} {d : NodeData} {r : Ref} :
    Touches (marks M s) (fun w => P w ∨ w ∈ allWrites s) t d r Q → Touches M P (.seq s t) d r Q
  | first {M : NodeData → Prop} {P Q : Wr → Prop} {f : Bool} {s t : Stmt} {d : NodeData} {r : Ref} :
    Touches M P s d r Q → Touches M P (.choose f s t) d r Q
  | second {M : NodeData → Prop} {P Q : Wr → Prop} {f : Bool} {s t : Stmt} {d : NodeData} {r : Ref} :
    Touches M P t d r Q → Touches M P (.choose f s t) d r Q

/-- The assignment at `loc` in the statement has the constant `d` on its right-hand side. -/
inductive Literal : Stmt → TextLoc → NodeData → Prop
  | seg {loc : TextLoc} {b : Bool} {segs : List DSeg} {g : DSeg} {v : Str} {w : Nat} {l : TextLoc} :
    g ∈ segs → .constant v w l ∈ g.rhs → Literal (.assign loc b (.aligned segs)) g.loc (.constant v w l)
  | left {s t : Stmt} {loc : TextLoc} {d : NodeData} : Literal s loc d → Literal (.seq s t) loc d
  | right {s t : Stmt} {loc : TextLoc} {d : NodeData} : Literal t loc d → Literal (.seq s t) loc d
  | first {f : Bool} {s t : Stmt} {loc : TextLoc} {d : NodeData} :
    Literal s loc d → Literal (.choose f s t) loc d
  | second {f : Bool} {s t : Stmt} {loc : TextLoc} {d : NodeData} :
    Literal t loc d → Literal (.choose f s t) loc d

/-- `Controls M C st u v`: the statement, entered with the last node one of `M` and the open condition
one of `C`, makes `v` depend on `u` for its control flow: an assignment, conditional or case under an
open condition, or a merge of what two alternatives end with. -/
inductive Controls : (NodeData → Prop) → (NodeData → Prop) → Stmt → NodeData → NodeData → Prop
  | assign {M C : NodeData → Prop} {loc l : TextLoc} {b : Bool} {a : Asg} {u : NodeData} :
    l ∈ asgLocs loc a → C u → Controls M C (.assign loc b a) u (.assignment l)
  | branch {M C : NodeData → Prop} {k : Bool} {loc : TextLoc} {u : NodeData} :
    C u → Controls M C (.branch k loc) u (branchData k loc)
  | nodes {M C : NodeData → Prop} {f : Bool} {s t : Stmt} {u : NodeData} :
    marks M s u ∨ marks M t u → Controls M C (.choose f s t) u .merge
  | conds {M C : NodeData → Prop} {f : Bool} {s t : Stmt} {u : NodeData} :
    conds C s u ∨ conds C t u → Controls M C (.choose f s t) u .merge
  | left {M C : NodeData → Prop} {s t : Stmt} {u v : NodeData} :
    Controls M C s u v → Controls M C (.seq s t) u v
  | right {M C : NodeData → Prop} {s t : Stmt} {u v : NodeData} :
    Controls (marks M s) (Spec.conds C s) t u v → Controls M C (.seq s t) u v
  | first {M C : NodeData → Prop} {f : Bool} {s t : Stmt} {u v : NodeData} :
    Controls M C s u v → Controls M C (.choose f s t) u v
  | second {M C : NodeData → Prop} {f : Bool} {s t : Stmt} {u v : NodeData} :
    Controls M C t u v → Controls M C (.choose f s t) u v

/-- Nothing, the node before a block. -/
def noData (_ : NodeData) : Prop := False

/-- The read of `r` belongs to `d` and comes after the writes `Q` of the block. -/
def ReadsIn (st : Stmt) (d : NodeData) (r : Ref) (Q : Wr → Prop) : Prop :=
  Touches noData (fun _ => False) st d r Q

/-! ### Between blocks, ports and connections -/

/-- How closely bits are followed where ranges are not aligned: `near b i` for bit `i` and a range, `tie k s j y i`
for a connection between bit `j` of port `s` and bit `i` of signal `y`, `final st y i loc` for the
assignments that can give bit `i` of `y` its value at the end of a block. -/
structure Grain where
  near : BitRange → Int → Prop
  tie : Conn → Nat → Int → Nat → Int → Prop
  final : Stmt → Nat → Int → TextLoc → Prop

/-- Signal `y` occurs in the actual of the connection. -/
def Mentions (k : Conn) (y : Nat) : Prop := ∃ e, k.actual = some e ∧ ∃ p ∈ e.paths, p.root = some y

/-- Whole signals: any bit will do. -/
def bySignal : Grain where
  near _ _ := True
  tie k _ _ y _ := Mentions k y
  final st y _ loc := ∃ w ∈ allWrites st, w.sym = y ∧ w.loc = loc

/-- Single bits; a connection that is not resolved bit by bit ties everything in it. -/
def byBit (E : TravEnv) : Grain where
  near := InRng
  tie k s j y i := Mentions k y ∧ (Simple E.opts E.D k → Direct E.opts E.D k →
    ∃ j' i' : Nat, (j' : Int) = j ∧ (i' : Int) = i ∧ Ties E.opts E.D k s j' y i')
  final := Leaves

/-- The block makes registers: it is edge-triggered and one of its events names a signal. -/
def Registers (b : Deferred) : Prop := Clocked b ∧ ∃ v ∈ blockEvents b, v.signal ≠ none

/-- Two ranges with the same bits. -/
def SameBits (a b : BitRange) : Prop := ∀ i, InRng a i ↔ InRng b i

/-- `d` describes a register of the block for a range of `y`. -/
inductive RegOf (E : TravEnv) (G : Grain) (b : Deferred) (y : Nat) : NodeData → Prop
  | mk {r : BitRange} : Registers b → (∀ p, InRng r p → ∃ loc, G.final b.stmt y p loc) →
    RegOf E G b y (.state (E.D.ref y).name (E.D.ref y).path (E.D.ref y).loc r)

/-- `d` describes a node that stands for a range of symbol `y`: a port, an interface variable or a
register. -/
inductive Stands (E : TravEnv) (es : List Event) (G : Grain) (y : Nat) : NodeData → Prop
  | made {ev : Event} {d : NodeData} : ev ∈ es → y ∈ declares ev → Makes E.D ev d → Stands E es G y d
  | register {b : Deferred} {d : NodeData} : b ∈ blocksOf es → RegOf E G b y d → Stands E es G y d

/-- `d` stands for symbol `y` and has bit `i`. -/
def StandsAt (E : TravEnv) (es : List Event) (G : Grain) (y : Nat) (d : NodeData) (i : Int) : Prop :=
  Stands E es G y d ∧ ∃ nb, d.bounds = some nb ∧ InRng nb i

/-- `d` can give bit `i` of `y` its value: an assignment of a block without registers, a node that
stands for `y`, an input port around `y`, an output port of an instance connected to `y`, or, if `y`
is a modport port, what stands for a variable behind it. -/
inductive Offers (E : TravEnv) (es : List Event) (G : Grain) (y : Nat) (i : Int) : NodeData → Prop
  | assign {b : Deferred} {loc : TextLoc} : b ∈ blocksOf es → ¬ Registers b → G.final b.stmt y i loc →
    Offers E es G y i (.assignment loc)
  | node {d : NodeData} : StandsAt E es G y d i → Offers E es G y i d
  | input {p : PortDecl} {r : PortDriver} {b : BitRange} : .port p ∈ es → p.inner = some y →
    r ∈ p.drivers → r.input = true → (r.lo : Int) ≤ b.left → b.left ≤ b.right → b.right ≤ r.hi →
    G.near b i → Offers E es G y i (.port (E.D.ref y).name (E.D.ref y).path (E.D.ref y).loc p.dir b)
  | output {k : Conn} {s : Nat} {f : Option Nat} {j : Int} {d : NodeData} : .connect k ∈ es →
    k.output = true → k.formal = .port s f → StandsAt E es G s d j → G.tie k s j y i →
    Offers E es G y i d
  | modport {l : Nat} {v : Nat × BitRange} {d : NodeData} {nb : BitRange} : E.D.kind y = .modportPort →
    v ∈ E.D.iface y l → Stands E es G v.1 d → d.bounds = some nb → SameBits nb v.2 →
    Offers E es G y i d

/-- `d` is a writer of bit `i` of `y`: an assignment of a block without registers, a register for `y`,
or an output port of an instance connected to `y`. -/
inductive WritesTo (E : TravEnv) (es : List Event) (G : Grain) (y : Nat) (i : Int) : NodeData → Prop
  | assign {b : Deferred} {loc : TextLoc} : b ∈ blocksOf es → ¬ Registers b → G.final b.stmt y i loc →
    WritesTo E es G y i (.assignment loc)
  | register {b : Deferred} {d : NodeData} {nb : BitRange} : b ∈ blocksOf es → RegOf E G b y d →
    d.bounds = some nb → InRng nb i → WritesTo E es G y i d
  | output {k : Conn} {s : Nat} {f : Option Nat} {j : Int} {d : NodeData} : .connect k ∈ es →
    k.output = true → k.formal = .port s f → StandsAt E es G s d j → G.tie k s j y i →
    WritesTo E es G y i d

/-- `d` depends on bit `i` of `y`: it is read in a block on behalf of `d`, `d` is a port whose
connection reads it, or `d` is a register and `y` its clock. -/
inductive Wants (E : TravEnv) (es : List Event) (G : Grain) (y : Nat) (i : Int) : NodeData → Prop
  | read {b : Deferred} {d : NodeData} {r : Ref} {Q : Wr → Prop} : b ∈ blocksOf es →
    ReadsIn b.stmt d r Q → r.sym = y → InRng r.bounds i → Wants E es G y i d
  | input {k : Conn} {s : Nat} {f : Option Nat} {j : Int} {d : NodeData} : .connect k ∈ es →
    (k.output = false ∨ ∃ e, k.actual = some e ∧ ¬ Lvalue e) → k.formal = .port s f →
    StandsAt E es G s d j → G.tie k s j y i → Wants E es G y i d
  | clock {b : Deferred} {v : SigEvent} {x : Nat} {d : NodeData} : b ∈ blocksOf es → RegOf E G b x d →
    v ∈ blockEvents b → v.signal = some y → 0 ≤ i → i < E.D.width y → Wants E es G y i d

/-- An edge for bit `i` of the signal with the given path is justified: inside one block, the source
is an earlier blocking assignment of the signal, some bit of which is read by the target; or the source offers
the bit and the target wants it; or the target is a port with that bit of the signal inside and the
source a writer of it; or an assignment gives the bit of a register or interface variable
its value, or writes through a modport port to a variable behind it. -/
inductive Justified (E : TravEnv) (es : List Event) (G : Grain) (path : Str) (i : Int) :
    NodeData → NodeData → Prop
  | inside {b : Deferred} {w : Wr} {r : Ref} {Q : Wr → Prop} {j : Int} {v : NodeData} :
    b ∈ blocksOf es → ReadsIn b.stmt v r Q → Q w → w.blocking = true → r.sym = w.sym →
    G.near w.bounds j → G.near r.bounds j → InRng r.bounds i → (E.D.ref r.sym).path = path →
    Justified E es G path i (.assignment w.loc) v
  | between {y : Nat} {u v : NodeData} : (E.D.ref y).path = path → Offers E es G y i u →
    Wants E es G y i v → Justified E es G path i u v
  | outward {y q : Nat} {u v : NodeData} : (E.D.ref y).path = path → WritesTo E es G y i u →
    E.D.port y = some q → StandsAt E es G q v i → Justified E es G path i u v
  | store {b : Deferred} {y : Nat} {loc : TextLoc} {v : NodeData} {nb : BitRange} : b ∈ blocksOf es →
    (E.D.ref y).path = path → G.final b.stmt y i loc → RegOf E G b y v → v.bounds = some nb →
    InRng nb i → Justified E es G path i (.assignment loc) v
  | «variable» {b : Deferred} {y : Nat} {loc : TextLoc} {v : NodeData} : b ∈ blocksOf es →
    (E.D.ref y).path = path → E.D.kind y = .variable → G.final b.stmt y i loc →
    StandsAt E es G y v i → Justified E es G path i (.assignment loc) v
  | modport {b : Deferred} {y l : Nat} {loc : TextLoc} {v : NodeData} {j : Int} {x : Nat × BitRange}
      {nb : BitRange} : b ∈ blocksOf es → (E.D.ref y).path = path → E.D.kind y = .modportPort →
    G.final b.stmt y j loc → x ∈ E.D.iface y l → Stands E es G x.1 v → v.bounds = some nb →
    SameBits nb x.2 → InRng x.2 i → Justified E es G path i (.assignment loc) v

/-- An edge without a signal is justified: from a constant to the assignment or input port that it is
given to, or for the control flow of a block. -/
inductive Blank (E : TravEnv) (es : List Event) (G : Grain) : NodeData → NodeData → Prop
  | literal {b : Deferred} {loc : TextLoc} {u : NodeData} : b ∈ blocksOf es → Literal b.stmt loc u →
    Blank E es G u (.assignment loc)
  | tied {k : Conn} {s : Nat} {f : Option Nat} {x : Str} {w : Nat} {v : NodeData} : .connect k ∈ es →
    k.output = false → k.formal = .port s f → Stands E es G s v → Blank E es G (.constant x w {}) v
  | control {b : Deferred} {u v : NodeData} : b ∈ blocksOf es → Controls noData noData b.stmt u v →
    Blank E es G u v

/-- `d` describes a register of a block with an event of kind `k` on signal `y`. -/
inductive TimedBy (E : TravEnv) (es : List Event) (G : Grain) (k : EdgeKind) (y : Nat) : NodeData → Prop
  | mk {b : Deferred} {v : SigEvent} {x : Nat} {d : NodeData} : b ∈ blocksOf es → RegOf E G b x d →
    v ∈ blockEvents b → v.signal = some y → v.edge = k → TimedBy E es G k y d

/-- An edge of a clocking kind is justified: it leads from something that gives a signal its value to
a register of a block with an event of that kind on the signal. -/
def Clocking (E : TravEnv) (es : List Event) (G : Grain) (k : EdgeKind) (u v : NodeData) : Prop :=
  ∃ y i, Offers E es G y i u ∧ TimedBy E es G k y v

/-- `v` depends directly on `u` in the design. -/
def Depends (E : TravEnv) (es : List Event) (G : Grain) (u v : NodeData) : Prop :=
  Blank E es G u v ∨ ∃ path i, Justified E es G path i u v

/-- `v` depends directly on `u` in the design and is not a register. -/
def CombDepends (E : TravEnv) (es : List Event) (G : Grain) (u v : NodeData) : Prop :=
  Depends E es G u v ∧ v.kind ≠ .state

/-- Every edge of the graph is enabled and justified, bit by bit, and its clocking kind too. -/
def Sound (E : TravEnv) (es : List Event) (G : Grain) (net : NetGraph) : Prop :=
  ∀ s ∈ net.g.nodes, ∀ e ∈ (net.g.obj s).outE, (net.attr e.id).disabled = false ∧
    ((net.attr e.id).edgeKind ≠ .none →
      Clocking E es G (net.attr e.id).edgeKind (net.data s) (net.data e.tgt)) ∧
    match (net.attr e.id).symbol with
    | none => Blank E es G (net.data s) (net.data e.tgt)
    | some r => ∀ i, InRng (net.attr e.id).bounds i →
      Justified E es G r.path i (net.data s) (net.data e.tgt)

end Verif.Spec

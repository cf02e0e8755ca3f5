import Verif.Model.Build
import Verif.Spec.Dataflow
import Verif.Spec.Sequential

/-! What a design's blocks write and read, block by block, without driver maps, queues or a graph. -/
namespace Verif.Spec
open Verif.Model

/-- The assignment at `loc` can give bit `p` of signal `sym` its value at the end of the statement:
it holds the textually last non-blocking write of the bit, or, if there is none, the last blocking
write of the bit on some control path. -/
def Leaves (st : Stmt) (sym : Nat) (p : Int) (loc : TextLoc) : Prop :=
  LastAt false (nbaWrites true st) sym p loc ∨
    ((∀ w ∈ nbaWrites true st, ¬ Hits false sym p w) ∧ ∃ tr, Runs st tr ∧ LastAt true tr sym p loc)

/-- The expression of the segment's right-hand side reads `r`. Automatic variables are not tracked
inside expressions. -/
inductive SrcReads : RSrc → Ref → Prop
  | lsp (r : Ref) : SrcReads (.lsp r) r
  | inside {rs : List Ref} {r : Ref} : r ∈ rs → r.auto = false → SrcReads (.opaque rs) r

/-- No write of the list is a blocking write of a bit of `r`. -/
def Apart (ws : List Wr) (r : Ref) : Prop :=
  ∀ p, InRng r.bounds p → ∀ w ∈ ws, ¬ Hits true r.sym p w

/-- Paths followed by those of a statement. -/
def After (P : List Wr → Prop) (st : Stmt) (tr : List Wr) : Prop :=
  ∃ u v, P u ∧ Runs st v ∧ tr = u ++ v

/-- `Use P st who r Q`: the statement, entered on the paths `P`, contains a read of `r` that belongs
to a node described by `who`, and `Q` are the paths on which the read is reached. The reads of an
assignment come before its writes; an assignment with a blocking write of a bit it reads is left out
(see `self_assignment_reads_itself`). The reads of a condition belong to the conditional before
them. -/
inductive Use : (List Wr → Prop) → Stmt → NodeData → Ref → (List Wr → Prop) → Prop
  | note {P : List Wr → Prop} {loc : TextLoc} {b : Bool} {notes : List Note} {r : Ref} :
    ⟨false, r⟩ ∈ notes → r.auto = false → Apart (asgWrites loc b (.legacy notes)) r →
    Use P (.assign loc b (.legacy notes)) (.assignment loc) r P
  | seg {P : List Wr → Prop} {loc : TextLoc} {b : Bool} {segs : List DSeg} {g : DSeg} {x : RSrc}
      {r : Ref} : g ∈ segs → x ∈ g.rhs → SrcReads x r → Apart (asgWrites loc b (.aligned segs)) r →
    Use P (.assign loc b (.aligned segs)) (.assignment g.loc) r P
  | cond {P : List Wr → Prop} {k : Bool} {loc : TextLoc} {rs : List Ref} {t : Stmt} {r : Ref} :
    r ∈ rs → r.auto = false →
    Use P (.seq (.branch k loc) (.seq (.reads rs) t)) (if k then .case loc else .conditional loc) r P
  | left {P Q : List Wr → Prop} {s t : Stmt} {who : NodeData} {r : Ref} :
    Use P s who r Q → Use P (.seq s t) who r Q
  | right {P Q : List Wr → Prop} {s t : Stmt} {who : NodeData} {r : Ref} :
    Use (After P s) t who r Q → Use P (.seq s t) who r Q
  | first {P Q : List Wr → Prop} {f : Bool} {s t : Stmt} {who : NodeData} {r : Ref} :
    Use P s who r Q → Use P (.choose f s t) who r Q
  | second {P Q : List Wr → Prop} {f : Bool} {s t : Stmt} {who : NodeData} {r : Ref} :
    Use P t who r Q → Use P (.choose f s t) who r Q

/-- The assignment at `loc` makes a blocking write of a bit it also reads; in an assignment that is not
split the write is noted before the read. `P` holds of the paths that lead to the statement. -/
inductive Rereads (W : List Wr) : (List Wr → Prop) → Stmt → TextLoc → Prop
  | note {P : List Wr → Prop} {loc : TextLoc} {pre post : List Note} {r : Ref} {p : Int} : (∃ tr, P tr) →
    r.auto = false → InRng r.bounds p → (∃ w ∈ asgWrites loc true (.legacy pre), Hits true r.sym p w) →
    ReadFits W r.sym r.bounds → Rereads W P (.assign loc true (.legacy (pre ++ ⟨false, r⟩ :: post))) loc
  | seg {P : List Wr → Prop} {loc : TextLoc} {segs : List DSeg} {g : DSeg} {x : RSrc} {r q : Ref} {p : Int} :
    (∃ tr, P tr) → g ∈ segs → x ∈ g.rhs → SrcReads x r → q ∈ g.lhs → q.sym = r.sym → InRng q.bounds p →
    InRng r.bounds p → ReadFits W r.sym r.bounds → Rereads W P (.assign loc true (.aligned segs)) g.loc
  | left {P : List Wr → Prop} {s t : Stmt} {loc : TextLoc} : Rereads W P s loc → Rereads W P (.seq s t) loc
  | right {P : List Wr → Prop} {s t : Stmt} {loc : TextLoc} :
    Rereads W (After P s) t loc → Rereads W P (.seq s t) loc
  | first {P : List Wr → Prop} {f : Bool} {s t : Stmt} {loc : TextLoc} :
    Rereads W P s loc → Rereads W P (.choose f s t) loc
  | second {P : List Wr → Prop} {f : Bool} {s t : Stmt} {loc : TextLoc} :
    Rereads W P t loc → Rereads W P (.choose f s t) loc

/-- The only path to the beginning of a block. -/
def Start (tr : List Wr) : Prop := tr = []

/-- One block makes `v` depend on `u`: `u` is the condition in front of `v`, or both are an assignment
that reads what it writes. -/
inductive Inside (st : Stmt) : NodeData → NodeData → Prop
  | guard {u v : NodeData} : Guards st u v → Inside st u v
  | self {loc : TextLoc} : Rereads (allWrites st) Start st loc → Inside st (.assignment loc) (.assignment loc)

/-- The events the block waits for. -/
def blockEvents : Deferred → List SigEvent
  | .procedural k body _ => eventsOf k body
  | .continuous .. => []

/-- The block is edge-triggered. -/
def Clocked (b : Deferred) : Prop := EdgeTriggered (blockEvents b)

/-- The block's event list consists of signal events, and the edge-triggered ones name signals. -/
def PlainEvents : Deferred → Prop
  | .procedural k body _ => SignalEventsOnly body ∧ PlainClocks (eventsOf k body)
  | .continuous .. => True

/-- The recordings made before the blocks are analysed (for the ports), as writes. -/
def histWrites (hist : List (Nat × Rec)) : List Wr :=
  hist.map fun x => ⟨x.1, x.2.bounds, {}, true⟩

/-- All writes of a design: the recordings for ports and the writes in the blocks. -/
def designWrites (hist : List (Nat × Rec)) (bs : List Deferred) : List Wr :=
  histWrites hist ++ bs.flatMap fun b => allWrites b.stmt

/-- The builder at the end of Phase 1: tables and graph agree, and the driver maps hold the
recordings `hist`, each with at least one driver, all drivers being nodes of the graph. -/
structure Started (s : Bld) (hist : List (Nat × Rec)) : Prop where
  ok : BldOk s
  run : ({} : Tracker).run [] hist = .ok (s.trk, s.drv)
  nodes : ∀ x ∈ hist, x.2.drivers ≠ [] ∧ ∀ d ∈ x.2.drivers, ∃ n ∈ s.net.g.nodes, d.node = some n

/-- The traversal order visits every signal of the table once. -/
def Visits (ord : Tracker → List (Nat × Nat)) : Prop := ∀ t : Tracker, (ord t).Perm t.slots

/-- What is assumed of a design: the builder is at the end of Phase 1, the ranges of all writes are
aligned (`Plain`), some path leads through each block, and event lists are plain. -/
structure Prepared (s : Bld) (hist : List (Nat × Rec)) (bs : List Deferred)
    (ord : Tracker → List (Nat × Nat)) : Prop where
  start : Started s hist
  plain : Plain (designWrites hist bs)
  live : ∀ b ∈ bs, live b.stmt = true
  events : ∀ b ∈ bs, PlainEvents b
  visits : Visits ord

/-- Node `n` is entered from a node of the assignment at `loc`. -/
def FedBy (net : NetGraph) (loc : TextLoc) (n : Nat) : Prop :=
  ∃ k ∈ net.g.nodes, net.data k = .assignment loc ∧ Joined net k n

/-- The signal has no port, variable or register node: none at the end of Phase 1, and no
edge-triggered block writes it. -/
def NoNode (s : Bld) (bs : List Deferred) (sym : Nat) : Prop :=
  s.vars sym = [] ∧ ∀ b ∈ bs, Clocked b → ∀ w ∈ allWrites b.stmt, w.sym ≠ sym

end Verif.Spec

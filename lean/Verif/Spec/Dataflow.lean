import Verif.Model.Dataflow
import Verif.Spec.Dependency

/-! What a procedural block writes, control path by control path, without driver maps or a graph. -/
namespace Verif.Spec
open Verif.Model

/-- One write: the signal, the range, the assignment it belongs to (by source location), and whether
that is a blocking assignment. -/
structure Wr where
  sym : Nat
  bounds : BitRange
  loc : TextLoc
  blocking : Bool
deriving DecidableEq, Repr

/-- The signals assigned by an assignment, in order. An assignment handled by visiting its sides does
not count automatic variables. -/
def targets : Asg → List Ref
  | .legacy notes => (notes.filter fun x => x.write && !x.ref.auto).map (·.ref)
  | .aligned segs => segs.flatMap (·.lhs)

/-- The writes of one assignment. -/
def asgWrites (loc : TextLoc) (blocking : Bool) : Asg → List Wr
  | .legacy notes => (targets (.legacy notes)).map fun r => ⟨r.sym, r.bounds, loc, blocking⟩
  | .aligned segs => segs.flatMap fun g => g.lhs.map fun r => ⟨r.sym, r.bounds, g.loc, blocking⟩

/-- The locations of the nodes of an assignment: its own, or those of its segments. -/
def asgLocs (loc : TextLoc) : Asg → List TextLoc
  | .legacy _ => [loc]
  | .aligned segs => segs.map (·.loc)

/-- The writes made along one control path through a statement. There is no path through `dead`. -/
inductive Runs : Stmt → List Wr → Prop
  | skip : Runs .skip []
  | reads (rs : List Ref) : Runs (.reads rs) []
  | assign (loc : TextLoc) (b : Bool) (a : Asg) : Runs (.assign loc b a) (asgWrites loc b a)
  | branch (k : Bool) (loc : TextLoc) : Runs (.branch k loc) []
  | seq {s t : Stmt} {u v : List Wr} : Runs s u → Runs t v → Runs (.seq s t) (u ++ v)
  | first {f : Bool} {s t : Stmt} {u : List Wr} : Runs s u → Runs (.choose f s t) u
  | second {f : Bool} {s t : Stmt} {u : List Wr} : Runs t u → Runs (.choose f s t) u

/-- The write is one of bit `p` of signal `sym`, blocking or not as given. -/
def Hits (blk : Bool) (sym : Nat) (p : Int) (w : Wr) : Prop :=
  w.blocking = blk ∧ w.sym = sym ∧ InRng w.bounds p

/-- The last (blocking or non-blocking) write of bit `p` of signal `sym` in a list belongs to the
assignment at `loc`. -/
def LastAt (blk : Bool) (tr : List Wr) (sym : Nat) (p : Int) (loc : TextLoc) : Prop :=
  ∃ pre w post, tr = pre ++ w :: post ∧ Hits blk sym p w ∧ w.loc = loc ∧
    ∀ v ∈ post, ¬ Hits blk sym p v

/-- All writes that occur in the text of a statement, in order. -/
def allWrites : Stmt → List Wr
  | .skip | .reads _ | .branch .. | .dead => []
  | .assign loc b a => asgWrites loc b a
  | .seq s t | .choose _ s t => allWrites s ++ allWrites t

/-- Whether some control path leads through a statement. -/
def live : Stmt → Bool
  | .dead => false
  | .seq s t => live s && live t
  | .choose _ s t => live s || live t
  | _ => true

/-- The non-blocking writes of a statement in textual order, except those in unreachable code that
are handled by visiting the sides of the assignment; `r` tells whether the statement is reachable. -/
def nbaWrites (r : Bool) : Stmt → List Wr
  | .skip | .reads _ | .branch .. | .dead => []
  | .assign loc b a =>
    match b, a with
    | true, _ => []
    | false, .legacy _ => if r then asgWrites loc false a else []
    | false, .aligned _ => asgWrites loc false a
  | .seq s t => nbaWrites r s ++ nbaWrites (r && live s) t
  | .choose _ s t => nbaWrites r s ++ nbaWrites r t

/-- A boundary between bits at which some write of the signal begins or ends: `k` is the bit above
the boundary. -/
def Cut (W : List Wr) (sym : Nat) (k : Int) : Prop :=
  ∃ w ∈ W, w.sym = sym ∧ (k = w.bounds.lower ∨ k = w.bounds.upper + 1)

/-- The condition under which driver maps are exact: ranges are 32-bit and do not reach the largest
value, and the writes of a signal have at most one boundary strictly inside each written range. -/
structure Plain (W : List Wr) : Prop where
  rng : ∀ w ∈ W, -2147483648 ≤ w.bounds.lower ∧ w.bounds.upper < 2147483647
  cuts : ∀ w ∈ W, ∀ j k, Cut W w.sym j → Cut W w.sym k →
    w.bounds.lower < j → j < k → k ≤ w.bounds.upper → False

/-- The read range lines up with the writes of the signal: every write that shares a bit with it lies
inside it, or no write begins or ends strictly inside it. -/
def ReadFits (W : List Wr) (sym : Nat) (b : BitRange) : Prop :=
  (∀ w ∈ W, w.sym = sym → (∃ p, InRng w.bounds p ∧ InRng b p) → ∀ p, InRng w.bounds p → InRng b p) ∨
  ∀ k, Cut W sym k → InRng b k → ¬ InRng b (k - 1)

/-- Node `d` drives bit `p` of `sym` in the current state of the analysis: an interval with that bit
holds it. -/
def Drives (t : Tracker) (drv : List DMap) (sym : Nat) (p : Int) (d : Option Nat) : Prop :=
  ∃ out, t.intervals drv sym ⟨p, p⟩ = .ok out ∧ ∃ x ∈ out, ∃ i ∈ x.2, i.node = d

/-- The node is that of the assignment at `loc`. -/
def IsAssign (net : NetGraph) (d : Option Nat) (loc : TextLoc) : Prop :=
  ∃ n ∈ net.g.nodes, d = some n ∧ net.data n = .assignment loc

/-- The builder before a block is analysed: the graph has been built by calls, and the nodes the
analysis may refer to are in it. -/
structure Ready (c : DfaCtx) (net : NetGraph) : Prop where
  built : Reachable net
  vars : ∀ y b n, c.vars.lookup y b = some n → n ∈ net.g.nodes
  ext : ∀ n, c.ext = some n → n ∈ net.g.nodes

/-- The assignment has at least one segment. -/
def MakesNode : Asg → Prop
  | .legacy _ => True
  | .aligned segs => segs ≠ []

/-- The statement only reads. -/
inductive Quiet : Stmt → Prop
  | skip : Quiet .skip
  | reads (rs : List Ref) : Quiet (.reads rs)
  | seq {s t : Stmt} : Quiet s → Quiet t → Quiet (.seq s t)

/-- The assignment at `loc` is the first one on some path through the statement that meets no other
assignment, conditional or exit before. -/
inductive Leads : Stmt → TextLoc → Prop
  | assign {loc l : TextLoc} {b : Bool} {a : Asg} : l ∈ asgLocs loc a → Leads (.assign loc b a) l
  | left {s t : Stmt} {loc : TextLoc} : Leads s loc → Leads (.seq s t) loc
  | right {s t : Stmt} {loc : TextLoc} : Quiet s → Leads t loc → Leads (.seq s t) loc
  | first {f : Bool} {s t : Stmt} {loc : TextLoc} : Leads s loc → Leads (.choose f s t) loc
  | second {f : Bool} {s t : Stmt} {loc : TextLoc} : Leads t loc → Leads (.choose f s t) loc

/-- The last statement is the assignment at `loc`. -/
inductive Final : Stmt → TextLoc → Prop
  | assign {loc l : TextLoc} {b : Bool} {a : Asg} : (asgLocs loc a).getLast? = some l → Final (.assign loc b a) l
  | seq {s t : Stmt} {loc : TextLoc} : Final t loc → Final (.seq s t) loc

/-- `d` describes the first assignment, conditional or case on some path through the statement. -/
inductive Heads : Stmt → NodeData → Prop
  | assign {loc l : TextLoc} {b : Bool} {a : Asg} : l ∈ asgLocs loc a → Heads (.assign loc b a) (.assignment l)
  | branch {k : Bool} {loc : TextLoc} : Heads (.branch k loc) (if k then .case loc else .conditional loc)
  | left {s t : Stmt} {d : NodeData} : Heads s d → Heads (.seq s t) d
  | right {s t : Stmt} {d : NodeData} : Quiet s → Heads t d → Heads (.seq s t) d
  | first {f : Bool} {s t : Stmt} {d : NodeData} : Heads s d → Heads (.choose f s t) d
  | second {f : Bool} {s t : Stmt} {d : NodeData} : Heads t d → Heads (.choose f s t) d

/-- Conditional or case `u` is followed directly by `d`: by one of the first assignments, conditionals
or cases in its branches. -/
inductive Guards : Stmt → NodeData → NodeData → Prop
  | here {k : Bool} {loc : TextLoc} {t : Stmt} {d : NodeData} : Heads t d →
    Guards (.seq (.branch k loc) t) (if k then .case loc else .conditional loc) d
  | left {s t : Stmt} {u d : NodeData} : Guards s u d → Guards (.seq s t) u d
  | right {s t : Stmt} {u d : NodeData} : Guards t u d → Guards (.seq s t) u d
  | first {f : Bool} {s t : Stmt} {u d : NodeData} : Guards s u d → Guards (.choose f s t) u d
  | second {f : Bool} {s t : Stmt} {u d : NodeData} : Guards t u d → Guards (.choose f s t) u d

end Verif.Spec

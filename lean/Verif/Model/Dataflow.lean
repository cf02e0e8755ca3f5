import Verif.Model.Sensitivity

/-!
The data flow analysis of one procedural block: `source/DataFlowAnalysis.hpp` and
`source/DataFlowAnalysis.cpp`, with `merge`, `addRvalue` and `addDriversToNode`
(source/NetlistBuilder.cpp:236-278).

The order in which statements are visited and states are copied and joined is decided by slang's
`AbstractFlowAnalysis`, which is not part of the repository. The statement language below has one
construct per service the analysis offers to it: `seq` visits one statement after the other, `choose`
visits two statements from copies of the current state and joins the results (in either direction),
`dead` continues with `unreachableState`. An `if` is a `branch` followed by a `choose`, a `case` is a
`branch` followed by nested `choose`s, an `if` with a constant condition is a `choose` one side of
which starts with `dead`. Parallel blocks and `meetState` are in `Verif.Model.Fork`, loops in
`Verif.Model.Loop`, jumps in `Verif.Model.Jump`; function calls are not modelled.
-/
namespace Verif.Model

/-- A use of a signal: the root symbol, the bounds of its longest static prefix, the expression, and
whether the symbol is an automatic variable (source/DataFlowAnalysis.cpp:174-187). -/
structure Ref where
  sym : Nat
  bounds : BitRange
  lsp : Nat := 0
  auto : Bool := false
deriving DecidableEq, Repr

/-- A use reported to `noteReference` (source/DataFlowAnalysis.cpp:154-194) and the value of
`isLValue` at that time. -/
structure Note where
  write : Bool
  ref : Ref
deriving DecidableEq, Repr

/-- One source of a segment of the right-hand side (source/DataFlowAnalysis.cpp:314-340). The uses
inside an opaque expression are listed in the order of the visit. Constants carry their rendered
value and location. -/
inductive RSrc where
  | lsp (r : Ref)
  | «opaque» (rs : List Ref)
  | padding
  | constant (value : Str) (width : Nat) (loc : TextLoc)
deriving DecidableEq, Repr

/-- A segment of a bit-aligned assignment (source/DataFlowAnalysis.cpp:287-341): the left-hand
signals with the segment's range, the sources of the right-hand side, and the location of the node
made for the segment. The mapping from expressions to segments is modelled in `Verif.Model.BitSlice`.
In the code all segments of an assignment have its location (line 294); here they may differ, so that
theorems can tell segments apart. -/
structure DSeg where
  lhs : List Ref
  rhs : List RSrc
  loc : TextLoc
deriving DecidableEq, Repr

/-- The two ways to handle an assignment (source/DataFlowAnalysis.cpp:227-349): by visiting both
sides, given as the uses in the order they are noted, or segment by segment. -/
inductive Asg where
  | legacy (notes : List Note)
  | aligned (segs : List DSeg)
deriving DecidableEq, Repr

/-- Statements, as far as the analysis distinguishes them (source/DataFlowAnalysis.cpp:227-372,
422-463); see the head of the file. -/
inductive Stmt where
  | skip
  | reads (rs : List Ref)
  | assign (loc : TextLoc) (blocking : Bool) (a : Asg)
  | branch (isCase : Bool) (loc : TextLoc)
  | dead
  | seq (s t : Stmt)
  | choose (intoFirst : Bool) (s t : Stmt)
deriving DecidableEq, Repr

/-- `AnalysisState` (source/DataFlowAnalysis.hpp:26-43). -/
structure Flow where
  drv : List DMap := []
  node : Option Nat := none
  cond : Option Nat := none
  reach : Bool := true

/-- A pending non-blocking write (source/DataFlowAnalysis.cpp:13-20). -/
structure PendL where
  sym : Nat
  bounds : BitRange
  lsp : Nat
  node : Option Nat
deriving DecidableEq, Repr

/-- The members of `DataFlowAnalysis` that change (source/DataFlowAnalysis.hpp:65-94), the current
state, and the parts of the builder it writes to: the graph and the queue of pending reads. -/
structure Dfa where
  net : NetGraph
  trk : Tracker := {}
  queue : List Pending := []
  nba : List PendL := []
  cur : Flow := {}

/-- What the analysis only reads: the symbols, the variable nodes of the builder, and `externalNode`
(source/DataFlowAnalysis.hpp:76-82). -/
structure DfaCtx where
  D : Design
  vars : VarTab
  ext : Option Nat := none

/-- Several annotated dependencies (source/NetlistBuilder.cpp:73-106). -/
def Dfa.addDeps (s : Dfa) (ds : List Dep) : Except Fault Dfa :=
  match s.net.addDependencies ds with
  | none => .error .oob
  | some net' => .ok { s with net := net' }

/-- The plain `addDependency` (source/NetlistBuilder.cpp:69-71). -/
def Dfa.addPlain (s : Dfa) (a b : Nat) : Except Fault Dfa :=
  match s.net.call (.addEdge a b) with
  | none => .error .oob
  | some net' => .ok { s with net := net' }

/-- A new node (source/NodeFactory.cpp:8-30, source/NetlistBuilder.cpp:252-253). -/
def Dfa.newNode (s : Dfa) (d : NodeData) : Except Fault (Dfa × Nat) :=
  match s.net.call (.addNode d) with
  | none => .error .oob
  | some net' => .ok ({ s with net := net' }, s.net.g.nextNode)

/-- The dependencies of a read through a modport port (source/NetlistBuilder.cpp:268-273). -/
def modportDeps (c : DfaCtx) (r : Ref) (b : BitRange) (n : Nat) : List Dep :=
  (c.D.iface r.sym r.lsp).filterMap fun v =>
    (c.vars.lookup v.1 v.2).map fun vn => ⟨vn, n, some (c.D.ref r.sym), b, .none⟩

/-- `addRvalue` (source/NetlistBuilder.cpp:259-278). -/
def Dfa.addRvalue (c : DfaCtx) (s : Dfa) (r : Ref) (b : BitRange) (node : Option Nat) :
    Except Fault Dfa :=
  match c.D.kind r.sym, node with
  | .modportPort, some n => s.addDeps (modportDeps c r b n)
  | _, _ => .ok { s with queue := s.queue ++ [⟨r.sym, b, node, .none⟩] }

/-- `addRvalue` for several ranges (source/DataFlowAnalysis.cpp:123-128). -/
def Dfa.addRvalues (c : DfaCtx) (s : Dfa) (r : Ref) (node : Option Nat) :
    List (Ivl Unit) → Except Fault Dfa
  | [] => .ok s
  | e :: es =>
    match s.addRvalue c r ⟨e.lo, e.hi⟩ node with
    | .error f => .error f
    | .ok s' => s'.addRvalues c r node es

/-- The loop over the overlapping definitions (source/DataFlowAnalysis.cpp:75-108): the requests made
and whether the loop returned early. -/
def readLoop (m : DMap) (b : BitRange) (n : Nat) (ref : SymRef) :
    List (Ivl Nat) → Except Fault (List Dep × Bool)
  | [] => .ok ([], false)
  | e :: es =>
    match m.getList e.val with
    | .error f => .error f
    | .ok l =>
      if (⟨e.lo, e.hi⟩ : BitRange).containsRange b then .ok (driverDeps l n ref b, true)
      else
        match readLoop m b n ref es with
        | .error f => .error f
        | .ok (ds, fin) =>
          if b.containsRange ⟨e.lo, e.hi⟩ then .ok (driverDeps l n ref b ++ ds, fin)
          else .ok (ds, fin)

/-- `handleRvalue` (source/DataFlowAnalysis.cpp:33-129). -/
def Dfa.handleRvalue (c : DfaCtx) (s : Dfa) (r : Ref) : Except Fault Dfa :=
  match (s.trk.getSlot r.sym).bind fun i => s.cur.drv[i]? with
  | none => s.addRvalue c r r.bounds (s.cur.node.or c.ext)
  | some m =>
    match s.cur.node with
    | none => s.addRvalue c r r.bounds c.ext
    | some n =>
      match readLoop m r.bounds n (c.D.ref r.sym) (imFind m.ivls r.bounds.lower r.bounds.upper) with
      | .error f => .error f
      | .ok (ds, fin) =>
        match s.addDeps ds with
        | .error f => .error f
        | .ok s1 =>
          if fin then .ok s1
          else
            match imDifference [⟨r.bounds.lower, r.bounds.upper, ()⟩] m.ivls with
            | .error f => .error f
            | .ok rest => s1.addRvalues c r (some n) rest

/-- `handleLvalue` (source/DataFlowAnalysis.cpp:133-150). -/
def Dfa.handleLvalue (s : Dfa) (blocking : Bool) (r : Ref) : Except Fault Dfa :=
  if !blocking then .ok { s with nba := s.nba ++ [⟨r.sym, r.bounds, r.lsp, s.cur.node⟩] }
  else
    match s.trk.addDrivers s.cur.drv r.sym ⟨r.bounds, [⟨s.cur.node, r.lsp⟩], false⟩ with
    | .error f => .error f
    | .ok (t', drv') => .ok { s with trk := t', cur := { s.cur with drv := drv' } }

/-- `noteReference` (source/DataFlowAnalysis.cpp:154-194). -/
def Dfa.noteRef (c : DfaCtx) (s : Dfa) (blocking : Bool) (x : Note) : Except Fault Dfa :=
  if !s.cur.reach then .ok s
  else if x.ref.auto then .ok s
  else if x.write then s.handleLvalue blocking x.ref
  else s.handleRvalue c x.ref

/-- Several uses in order (source/DataFlowAnalysis.cpp:234-246). -/
def Dfa.noteRefs (c : DfaCtx) (s : Dfa) (blocking : Bool) : List Note → Except Fault Dfa
  | [] => .ok s
  | x :: xs =>
    match s.noteRef c blocking x with
    | .error f => .error f
    | .ok s' => s'.noteRefs c blocking xs

/-- `updateNode` (source/DataFlowAnalysis.cpp:196-213). -/
def Dfa.updateNode (s : Dfa) (n : Nat) (conditional : Bool) : Except Fault Dfa :=
  let fin (s' : Dfa) : Dfa :=
    { s' with cur := { s'.cur with cond := if conditional then some n else none, node := some n } }
  match s.cur.cond with
  | none => .ok (fin s)
  | some k =>
    match s.addPlain k n with
    | .error f => .error f
    | .ok s' => .ok (fin s')

/-- The left-hand side of a segment (source/DataFlowAnalysis.cpp:297-309, 465-480). -/
def Dfa.segLhs (s : Dfa) (blocking : Bool) : List Ref → Except Fault Dfa
  | [] => .ok s
  | r :: rs =>
    match s.handleLvalue blocking r with
    | .error f => .error f
    | .ok s' => s'.segLhs blocking rs

/-- One source of the right-hand side of a segment (source/DataFlowAnalysis.cpp:314-340, 482-497). -/
def Dfa.segSrc (c : DfaCtx) (s : Dfa) (blocking : Bool) : RSrc → Except Fault Dfa
  | .lsp r => s.handleRvalue c r
  | .opaque rs => s.noteRefs c blocking (rs.map fun r => ⟨false, r⟩)
  | .padding => .ok s
  | .constant v w l =>
    match s.cur.node with
    | none => .ok s
    | some n =>
      match s.newNode (.constant v w l) with
      | .error f => .error f
      | .ok (s1, k) => s1.addPlain k n

/-- The right-hand side of a segment (source/DataFlowAnalysis.cpp:311-342). -/
def Dfa.segRhs (c : DfaCtx) (s : Dfa) (blocking : Bool) : List RSrc → Except Fault Dfa
  | [] => .ok s
  | x :: xs =>
    match s.segSrc c blocking x with
    | .error f => .error f
    | .ok s' => s'.segRhs c blocking xs

/-- One segment (source/DataFlowAnalysis.cpp:297-342), after its node has been created. -/
def Dfa.segBody (c : DfaCtx) (s : Dfa) (blocking : Bool) (g : DSeg) : Except Fault Dfa :=
  match s.segLhs blocking g.lhs with
  | .error f => .error f
  | .ok s' => s'.segRhs c blocking g.rhs

/-- `createAssignment` followed by `updateNode` (source/DataFlowAnalysis.cpp:229-230, 294-295). -/
def Dfa.startAssign (s : Dfa) (loc : TextLoc) : Except Fault Dfa :=
  match s.newNode (.assignment loc) with
  | .error f => .error f
  | .ok (s1, n) => s1.updateNode n false

/-- The loop over the segments (source/DataFlowAnalysis.cpp:283-343); `node` and `cond` are the saved
pointers. -/
def Dfa.segments (c : DfaCtx) (s : Dfa) (blocking : Bool) (node cond : Option Nat) :
    List DSeg → Except Fault Dfa
  | [] => .ok s
  | g :: gs =>
    let s0 : Dfa := { s with cur := { s.cur with node := node, cond := cond } }
    match s0.startAssign g.loc with
    | .error f => .error f
    | .ok s1 =>
      match s1.segBody c blocking g with
      | .error f => .error f
      | .ok s2 => s2.segments c blocking node cond gs

/-- `handle(AssignmentExpression)` (source/DataFlowAnalysis.cpp:227-349). -/
def Dfa.assign (c : DfaCtx) (s : Dfa) (loc : TextLoc) (blocking : Bool) : Asg → Except Fault Dfa
  | .legacy notes =>
    match s.startAssign loc with
    | .error f => .error f
    | .ok s1 => s1.noteRefs c blocking notes
  | .aligned segs => s.segments c blocking s.cur.node s.cur.cond segs

/-- `createConditional`/`createCase` followed by `updateNode`
(source/DataFlowAnalysis.cpp:362-363, 369-370). -/
def Dfa.branch (s : Dfa) (isCase : Bool) (loc : TextLoc) : Except Fault Dfa :=
  match s.newNode (if isCase then .case loc else .conditional loc) with
  | .error f => .error f
  | .ok (s1, n) => s1.updateNode n true

/-- `getSymbol` (source/ValueTracker.hpp:78-84). -/
def Tracker.symbolOf (t : Tracker) (i : Nat) : Option Nat :=
  (t.slots.find? fun p => p.2 == i).map (·.1)

/-- Merging the intervals of one slot (source/DataFlowAnalysis.cpp:381-389). A slot without a symbol
would be a null dereference, a fault. -/
def mergeIvls (m : DMap) (sym : Option Nat) (t : Tracker) (drv : List DMap) :
    List (Ivl Nat) → Except Fault (Tracker × List DMap)
  | [] => .ok (t, drv)
  | e :: es =>
    match m.getList e.val, sym with
    | .error f, _ => .error f
    | .ok _, none => .error .oob
    | .ok l, some y =>
      match t.addDrivers drv y ⟨⟨e.lo, e.hi⟩, l, true⟩ with
      | .error f => .error f
      | .ok (t', drv') => mergeIvls m sym t' drv' es

/-- Merging the driver maps of a state, starting at slot `i` (source/DataFlowAnalysis.cpp:378-389). -/
def mergeDrv (t : Tracker) (drv : List DMap) (i : Nat) :
    List DMap → Except Fault (Tracker × List DMap)
  | [] => .ok (t, drv)
  | m :: ms =>
    match mergeIvls m (t.symbolOf i) t drv m.ivls with
    | .error f => .error f
    | .ok (t', drv') => mergeDrv t' drv' (i + 1) ms

/-- The lambda `mergeNodes` (source/DataFlowAnalysis.cpp:391-410) with `merge`
(source/NetlistBuilder.cpp:247-257). Two equal nodes give null. Simplified: `merge` compares
IDs, which differ for different nodes unless another builder is constructed meanwhile (see Model/Process). -/
def Dfa.mergeNodes (s : Dfa) : Option Nat → Option Nat → Except Fault (Dfa × Option Nat)
  | some a, some b =>
    if a ≠ b then
      match s.newNode .merge with
      | .error f => .error f
      | .ok (s1, n) =>
        match s1.addPlain a n with
        | .error f => .error f
        | .ok s2 =>
          match s2.addPlain b n with
          | .error f => .error f
          | .ok s3 => .ok (s3, some n)
    else .ok (s, none)
  | a, none => .ok (s, a)
  | none, b => .ok (s, b)

/-- `mergeStates` (source/DataFlowAnalysis.cpp:374-420), with the result as current state. -/
def Dfa.mergeStates (s : Dfa) (other : Flow) : Except Fault Dfa :=
  match mergeDrv s.trk s.cur.drv 0 other.drv with
  | .error f => .error f
  | .ok (t', drv') =>
    let s1 : Dfa := { s with trk := t', cur := { s.cur with drv := drv' } }
    match s1.mergeNodes s1.cur.node other.node with
    | .error f => .error f
    | .ok (s2, n) =>
      match s2.mergeNodes s2.cur.cond other.cond with
      | .error f => .error f
      | .ok (s3, k) => .ok { s3 with cur := { s3.cur with node := n, cond := k } }

/-- `joinState` (source/DataFlowAnalysis.cpp:422-430), with the result as current state. -/
def Dfa.joinState (s : Dfa) (other : Flow) : Except Fault Dfa :=
  if s.cur.reach = other.reach then s.mergeStates other
  else if !s.cur.reach then .ok { s with cur := other }
  else .ok s

/-- The visit of a statement (source/DataFlowAnalysis.cpp:215-372); see the head of the file for the
order. `copyState` (source/DataFlowAnalysis.cpp:442-454) copies the driver maps (see
`Verif.Model.External` for `clone`), so it is the identity on values. -/
def Dfa.exec (c : DfaCtx) (s : Dfa) : Stmt → Except Fault Dfa
  | .skip => .ok s
  | .reads rs => s.noteRefs c true (rs.map fun r => ⟨false, r⟩)
  | .assign loc blocking a => s.assign c loc blocking a
  | .branch k loc => s.branch k loc
  | .dead => .ok { s with cur := { reach := false } }
  | .seq a b =>
    match s.exec c a with
    | .error f => .error f
    | .ok s1 => s1.exec c b
  | .choose intoFirst a b =>
    match s.exec c a with
    | .error f => .error f
    | .ok s1 =>
      match ({ s1 with cur := s.cur } : Dfa).exec c b with
      | .error f => .error f
      | .ok s2 =>
        if intoFirst then ({ s2 with cur := s1.cur } : Dfa).joinState s2.cur
        else s2.joinState s1.cur

/-- `processNonBlockingLvalues` (source/DataFlowAnalysis.cpp:22-31) on the remaining writes. -/
def Dfa.processNba (s : Dfa) : List PendL → Except Fault Dfa
  | [] => .ok { s with nba := [] }
  | w :: ws =>
    match s.trk.addDrivers s.cur.drv w.sym ⟨w.bounds, [⟨w.node, w.lsp⟩], false⟩ with
    | .error f => .error f
    | .ok (t', drv') =>
      ({ s with trk := t', cur := { s.cur with drv := drv' } } : Dfa).processNba ws

/-- The analysis of a procedural block: `run` and `finalize` (source/NetlistBuilder.cpp:542-544). -/
def Dfa.runBlock (c : DfaCtx) (s : Dfa) (st : Stmt) : Except Fault Dfa :=
  match s.exec c st with
  | .error f => .error f
  | .ok s1 => s1.processNba s1.nba

end Verif.Model

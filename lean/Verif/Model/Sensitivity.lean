import Verif.Model.Pending

/-!
Sequential blocks and the merging of a block's drivers into the design:
`collectSensitivity`, `hookupOutputPort`, `mergeDrivers` and `handleProceduralBlock` of
`source/NetlistBuilder.cpp`, with the node constructors of `source/NodeFactory.cpp` they use.
-/
namespace Verif.Model

/-- `ast::ProceduralBlockKind` as tested at source/NetlistBuilder.cpp:119-120. -/
inductive ProcKind where
  | initial | final | always | alwaysComb | alwaysLatch | alwaysFF
deriving DecidableEq, Repr

/-- One `ast::SignalEventControl` (source/NetlistBuilder.cpp:140-153): its edge, and what its
expression is: `some s` for a plain reference to the signal `s`, `none` for anything else (a
select, an operator). Its `iff` condition is not read by the code. -/
structure SigEvent where
  edge : EdgeKind
  signal : Option Nat
deriving DecidableEq, Repr

/-- `ast::TimingControl` as distinguished at source/NetlistBuilder.cpp:155-161. `none` in a list
stands for an element that is not a signal event. -/
inductive Timing where
  | signalEvent (e : SigEvent)
  | eventList (es : List (Option SigEvent))
  | other
deriving DecidableEq, Repr

/-- The body of a procedural block as distinguished at source/NetlistBuilder.cpp:124-136. -/
inductive ProcBody where
  | timed (t : Timing)
  | seqBlockOfAssertion
  | other
deriving DecidableEq, Repr

/-- `SensitivityEntry` (source/NetlistBuilder.hpp:160-164). The expression is that of the event and
is not used further. -/
structure SensEntry where
  signal : Nat
  kind : EdgeKind
deriving DecidableEq, Repr

/-- The lambda `recordEvent` (source/NetlistBuilder.cpp:140-153) on the pair
(`sawCombEvent`, `result`). -/
def recordEvent (st : Bool × List SensEntry) (e : SigEvent) : Bool × List SensEntry :=
  if e.edge = .none then (true, st.2)
  else
    match e.signal with
    | some s => (st.1, st.2 ++ [⟨s, e.edge⟩])
    | none => st

/-- The loop over an event list (source/NetlistBuilder.cpp:158-160). `as<SignalEventControl>` on
another kind of timing control is an assertion failure, reported as a fault. -/
def recordEvents (st : Bool × List SensEntry) : List (Option SigEvent) →
    Except Fault (Bool × List SensEntry)
  | [] => .ok st
  | none :: _ => .error .oob
  | some e :: es => recordEvents (recordEvent st e) es

/-- What is recorded from a timing control (source/NetlistBuilder.cpp:138, 155-161). -/
def Timing.events : Timing → Except Fault (Bool × List SensEntry)
  | .signalEvent e => .ok (recordEvent (false, []) e)
  | .eventList es => recordEvents (false, []) es
  | .other => .ok (false, [])

/-- `collectSensitivity` (source/NetlistBuilder.cpp:115-167). -/
def collectSensitivity (k : ProcKind) (b : ProcBody) : Except Fault (List SensEntry) :=
  if k ≠ .alwaysFF ∧ k ≠ .always then .ok []
  else
    match b with
    | .seqBlockOfAssertion => .ok []
    | .other => .ok []
    | .timed t =>
      match t.events with
      | .error f => .error f
      | .ok (comb, result) => .ok (if comb then [] else result)

/-- The symbol kinds that `mergeDrivers` and `addRvalue` distinguish
(source/NetlistBuilder.cpp:267, 399, 410). -/
inductive SymKind where
  | modportPort | variable | other
deriving DecidableEq, Repr

/-- What the builder reads from the elaborated design about a symbol, all of it computed by slang:
its interned record, its kind, `getSelectableWidth` of its type, the port of its single port back
reference (source/NetlistBuilder.cpp:286-299; `none` when there is no or more than one), and the
interface variables behind a modport port for a given expression (`resolveInterfaceRef`,
source/NetlistBuilder.cpp:169-234). -/
structure Design where
  ref : Nat → SymRef
  kind : Nat → SymKind
  width : Nat → Nat
  port : Nat → Option Nat
  iface : Nat → Nat → List (Nat × BitRange)

/-- The builder's members touched by the merging of drivers (source/NetlistBuilder.hpp:53-83): the
graph, the variable nodes, the driver maps and the queue of pending reads. -/
structure Bld where
  net : NetGraph := {}
  vars : VarTab := fun _ => []
  trk : Tracker := {}
  drv : List DMap := []
  queue : List Pending := []

/-- Several calls of the annotated `addDependency` (source/NetlistBuilder.cpp:73-106). A node outside
the graph is a fault. -/
def Bld.addDeps (s : Bld) (ds : List Dep) : Except Fault Bld :=
  match s.net.addDependencies ds with
  | none => .error .oob
  | some net' => .ok { s with net := net' }

/-- One dependency per driver that has a node (source/NetlistBuilder.cpp:313-318, 369-374). -/
def driverDeps (l : List DriverInfo) (tgt : Nat) (ref : SymRef) (b : BitRange) : List Dep :=
  l.filterMap fun d => d.node.map fun n => ⟨n, tgt, some ref, b, .none⟩

/-- The port node for a driven range (source/NetlistBuilder.cpp:299-309): the one with exactly that
range, or the first one whose range contains it. -/
def portNodeFor (s : Bld) (port : Nat) (b : BitRange) : Option Nat :=
  match s.vars.lookup port b with
  | some n => some n
  | none => (s.vars.lookupAll port).find? fun n =>
      match (s.net.data n).bounds with
      | some nb => nb.containsRange b
      | none => false

/-- `hookupOutputPort` (source/NetlistBuilder.cpp:280-321), as the dependencies it adds. -/
def hookupDeps (D : Design) (s : Bld) (sym : Nat) (b : BitRange) (l : List DriverInfo) : List Dep :=
  match D.port sym with
  | none => []
  | some port =>
    match portNodeFor s port b with
    | none => []
    | some pn => driverDeps l pn (D.ref sym) b

/-- `createState` (source/NodeFactory.cpp:76-84): the new node and its registration. -/
def Bld.createState (D : Design) (s : Bld) (sym : Nat) (b : BitRange) : Except Fault (Bld × Nat) :=
  let r := D.ref sym
  match s.net.call (.addNode (.state r.name r.path r.loc b)) with
  | none => .error .oob
  | some net' => .ok ({ s with net := net', vars := s.vars.insert sym b s.net.g.nextNode },
      s.net.g.nextNode)

/-- The pending reads of the clocks of one register (source/NetlistBuilder.cpp:379-387). -/
def clockReads (D : Design) (sens : List SensEntry) (state : Nat) : List Pending :=
  sens.filterMap fun e =>
    if D.width e.signal = 0 then none
    else some ⟨e.signal, ⟨0, (D.width e.signal : Int) - 1⟩, some state, e.kind⟩

/-- The dependencies on interface variables and variable nodes (source/NetlistBuilder.cpp:393-420).
The lookups do not depend on the graph's edges, so the list can be computed before the edges are
added. A variable node without bounds would fail the assertion at line 416; every registered node
has bounds. -/
def extraDeps (D : Design) (s : Bld) (sym : Nat) (b : BitRange) (l : List DriverInfo) : List Dep :=
  l.flatMap fun d =>
    match d.node with
    | none => []
    | some n =>
      match D.kind sym with
      | .modportPort => (D.iface sym d.lsp).filterMap fun v =>
          (s.vars.lookup v.1 v.2).map fun vn => ⟨n, vn, some (D.ref sym), v.2, .none⟩
      | .variable =>
        match s.vars.lookup sym b with
        | none => []
        | some vn => [⟨n, vn, some (D.ref sym), ((s.net.data vn).bounds).getD b, .none⟩]
      | .other => []

/-- The body of the loop of `mergeDrivers` for a combinational block
(source/NetlistBuilder.cpp:353-359, 393-420). -/
def Bld.mergeComb (D : Design) (s : Bld) (sym : Nat) (b : BitRange) (l : List DriverInfo) :
    Except Fault Bld :=
  match s.trk.addDrivers s.drv sym ⟨b, l, true⟩ with
  | .error e => .error e
  | .ok (t', drv') =>
    let s1 : Bld := { s with trk := t', drv := drv' }
    s1.addDeps (hookupDeps D s1 sym b l ++ extraDeps D s1 sym b l)

/-- The body of the loop of `mergeDrivers` for a sequential block
(source/NetlistBuilder.cpp:367-390, 393-420). -/
def Bld.mergeSeq (D : Design) (sens : List SensEntry) (s : Bld) (sym : Nat) (b : BitRange)
    (l : List DriverInfo) : Except Fault Bld :=
  match s.createState D sym b with
  | .error e => .error e
  | .ok (s1, st) =>
    let s2 : Bld := { s1 with queue := s1.queue ++ clockReads D sens st }
    s2.addDeps (driverDeps l st (D.ref sym) b ++
      hookupDeps D s2 sym b [⟨some st, 0⟩] ++ extraDeps D s2 sym b l)

/-- One driven range of a block (source/NetlistBuilder.cpp:345-346, 350-351). -/
structure Driven where
  sym : Nat
  bounds : BitRange
  drivers : List DriverInfo
deriving DecidableEq, Repr

/-- `mergeDrivers` (source/NetlistBuilder.cpp:323-423) over the driven ranges of a block. -/
def Bld.mergeDrivers (D : Design) (sens : List SensEntry) (s : Bld) : List Driven → Except Fault Bld
  | [] => .ok s
  | w :: ws =>
    match (if sens.isEmpty then s.mergeComb D w.sym w.bounds w.drivers
      else s.mergeSeq D sens w.sym w.bounds w.drivers) with
    | .error e => .error e
    | .ok s' => Bld.mergeDrivers D sens s' ws

/-- The driven ranges of a block, symbols in the order `visitAll` delivers them
(source/NetlistBuilder.cpp:331-346, source/ValueTracker.hpp:73-76). The order is that of a hash map,
so `order` is an arbitrary list of (symbol, slot) pairs. -/
def drivenOf (drv : List DMap) : List (Nat × Nat) → Except Fault (List Driven)
  | [] => .ok []
  | (sym, i) :: rest =>
    match drivenOf drv rest with
    | .error e => .error e
    | .ok ws =>
      match drv[i]? with
      | none => .ok ws
      | some m =>
        match m.ivls.mapM fun e => do
            let l ← m.getList e.val
            return (⟨sym, ⟨e.lo, e.hi⟩, l⟩ : Driven) with
        | .error e => .error e
        | .ok vs => .ok (vs ++ ws)

/-- The end of `handleProceduralBlock` (source/NetlistBuilder.cpp:541, 545-546): the block's own
drivers `bdrv`, tracked by `order`, are merged under the block's sensitivity. -/
def Bld.finishBlock (D : Design) (s : Bld) (k : ProcKind) (body : ProcBody)
    (order : List (Nat × Nat)) (bdrv : List DMap) : Except Fault Bld :=
  match collectSensitivity k body with
  | .error e => .error e
  | .ok sens =>
    match drivenOf bdrv order with
    | .error e => .error e
    | .ok ws => s.mergeDrivers D sens ws

end Verif.Model

import Verif.Model.Build
import Verif.Model.PortSlice
import Verif.Model.Wildcard

/-!
Phase 1 of a build: the traversal of the elaborated design that creates port and interface variable
nodes, wires instances, and defers the blocks. `source/NetlistBuilder.cpp:425-536, 558-562`,
`source/PortConnectionHandler.cpp`, `source/NodeFactory.cpp:34-74`, `source/BuildPipeline.cpp:16-38`.

The builder's driver maps are only written in this phase, never read. The recordings are collected
in `Col.hist` and made in the same order at the end (`Col.start`).
-/
namespace Verif.Model

/-- The options read in this phase (include/netlist/BuilderOptions.hpp:10-48). -/
structure BuildOpts where
  resolveBits : Bool := true
  propCuts : Bool := true
  boxes : List Str := []

/-- What does not change during the traversal: the symbols, the options, a number for the expression
of a value path (source/PortConnectionHandler.cpp:273, 288-294, 399, 403; paths with the same root and bounds
get the same number, a simplification), and how constants are printed. -/
structure TravEnv where
  D : Design
  opts : BuildOpts
  lspId : LspPath → Nat
  render : List LBit → Str

/-- One driver of a port's internal symbol as reported by slang
(source/PortConnectionHandler.cpp:121, 129-130, 154): its bounds, ascending, and `isInputPort()`. -/
structure PortDriver where
  lo : Nat
  extra : Nat
  input : Bool
deriving DecidableEq, Repr

/-- The upper bound of a driver (source/PortConnectionHandler.cpp:140). -/
def PortDriver.hi (d : PortDriver) : Nat := d.lo + d.extra

/-- A port symbol: its internal symbol if that is a value (source/PortConnectionHandler.cpp:112), its
direction, and the drivers of the internal symbol (of its canonical counterpart, see
`Verif.Model.Canonical`). -/
structure PortDecl where
  sym : Nat
  inner : Option Nat
  dir : ArgDir
  drivers : List PortDriver
deriving DecidableEq, Repr

/-- The formal of a port connection (source/NetlistBuilder.cpp:514-520): a port with its internal
symbol, an interface port, or any other kind (a multi-port). -/
inductive Formal where
  | port (sym : Nat) (inner : Option Nat)
  | interface
  | multi
deriving DecidableEq, Repr

/-- A port connection (source/PortConnectionHandler.cpp:199-214, 224): the formal, the actual (`none` when
missing or bad; the assignment around an output's actual is removed), whether there was such an
assignment, and whether the types of port and actual are integral. -/
structure Conn where
  formal : Formal
  actual : Option SExpr
  output : Bool
  integral : Bool

/-- The members of a scope, as far as the traversal distinguishes them: `group` is a generate block
or an array of generate blocks or instances (source/NetlistBuilder.cpp:558-562); `inst` an instance
with the name of its definition, its path, the members of its body and its port connections
(source/NetlistBuilder.cpp:478-522). For a variable: whether its scope is an interface instance, and
the bounds of its drivers as lower end and length less one (source/NetlistBuilder.cpp:430-456). -/
inductive Member where
  | port (p : PortDecl)
  | variable (sym : Nat) (inInterface : Bool) (drivers : List (Nat × Nat))
  | block (b : Deferred)
  | group (uninstantiated : Bool) (members : List Member)
  | inst (uninstantiated : Bool) (defName path : Str) (members : List Member) (conns : List Conn)

/-- The state of the traversal: the builder without its driver maps, the recordings for the driver
maps, the cut registry (source/PortConnectionHandler.hpp), the black-box paths of the graph
(include/netlist/NetlistGraph.hpp:185-187, 205), the deferred blocks (source/BuildPipeline.hpp). -/
structure Col where
  b : Bld := {}
  hist : List (Nat × Rec) := []
  cuts : CutReg := fun _ => none
  boxes : List Str := []
  blocks : List Deferred := []

/-- Several dependencies (source/NetlistBuilder.cpp:73-106). -/
def Col.addDeps (c : Col) (ds : List Dep) : Except Fault Col :=
  match c.b.addDeps ds with
  | .error e => .error e
  | .ok b' => .ok { c with b := b' }

/-- A node that is registered for a range of a symbol (source/NodeFactory.cpp:56-74). -/
def Col.newNode (c : Col) (sym : Nat) (b : BitRange) (d : NodeData) : Except Fault (Col × Nat) :=
  match c.b.net.call (.addNode d) with
  | none => .error .oob
  | some net' =>
    .ok ({ c with b := { c.b with net := net', vars := c.b.vars.insert sym b c.b.net.g.nextNode } },
      c.b.net.g.nextNode)

/-- The segments of one driver of a port (source/PortConnectionHandler.cpp:152-157): a node each, and
for input drivers the node is recorded as the driver of the internal symbol, replacing earlier
ones. -/
def Col.portSegs (E : TravEnv) (p : PortDecl) (x : Nat) (input : Bool) (c : Col) :
    List BitRange → Except Fault Col
  | [] => .ok c
  | b :: bs =>
    let r := E.D.ref x
    match c.newNode p.sym b (.port r.name r.path r.loc p.dir b) with
    | .error e => .error e
    | .ok (c1, n) =>
      let c2 : Col := if input then { c1 with hist := c1.hist ++ [(x, ⟨b, [⟨some n, 0⟩], false⟩)] } else c1
      c2.portSegs E p x input bs

/-- The loop over the drivers of a port (source/PortConnectionHandler.cpp:129-158). -/
def Col.portDrivers (E : TravEnv) (p : PortDecl) (x : Nat) (hints : Option (List Nat)) (c : Col) :
    List PortDriver → Except Fault Col
  | [] => .ok c
  | d :: ds =>
    match portSegments hints d.lo d.hi with
    | .error e => .error e
    | .ok segs =>
      match c.portSegs E p x d.input segs with
      | .error e => .error e
      | .ok c1 => c1.portDrivers E p x hints ds

/-- `materializePortNodes` (source/PortConnectionHandler.cpp:110-159). -/
def Col.materialize (E : TravEnv) (c : Col) (p : PortDecl) : Except Fault Col :=
  match p.inner with
  | none => .ok c
  | some x => c.portDrivers E p x (if E.opts.propCuts then c.cuts.cutsFor x else none) p.drivers

/-- `handle(VariableSymbol)` for a variable of an interface (source/NetlistBuilder.cpp:443-453). -/
def Col.variables (E : TravEnv) (sym : Nat) (c : Col) : List (Nat × Nat) → Except Fault Col
  | [] => .ok c
  | d :: ds =>
    let r := E.D.ref sym
    let b : BitRange := ⟨d.1, (d.1 : Int) + d.2⟩
    match c.newNode sym b (.variable r.name r.path r.loc b) with
    | .error e => .error e
    | .ok (c1, _) => c1.variables E sym ds

/-- One connection in `recordCutsFromPortConnections` (source/PortConnectionHandler.cpp:163-192). -/
def Col.recordCut (E : TravEnv) (c : Col) (k : Conn) : Col :=
  match k.formal, k.actual with
  | .port sym (some x), some e =>
    if k.integral ∧ E.D.width sym = e.width then
      { c with cuts := c.cuts.addCuts (E.D.width x) x (collectActualCuts c.cuts 0 e) }
    else c
  | _, _ => c

/-- `recordCutsFromPortConnections` (source/PortConnectionHandler.cpp:161-193). -/
def Col.recordCuts (E : TravEnv) (c : Col) : List Conn → Col
  | [] => c
  | k :: ks => (c.recordCut E k).recordCuts E ks

/-- `addRvalue` (source/NetlistBuilder.cpp:259-278) for a port node. -/
def Col.rvalue (E : TravEnv) (c : Col) (y lsp : Nat) (b : BitRange) (n : Nat) : Except Fault Col :=
  match E.D.kind y with
  | .modportPort => c.addDeps (modportDeps ⟨E.D, c.b.vars, none⟩ ⟨y, b, lsp, false⟩ b n)
  | _ => .ok { c with b := { c.b with queue := c.b.queue ++ [⟨y, b, some n, .none⟩] } }

/-- An output port drives part of a signal of the enclosing scope: `mergeDrivers` and
`hookupOutputPort` (source/PortConnectionHandler.cpp:288-291, 399-401). -/
def Col.lvalue (E : TravEnv) (c : Col) (y lsp : Nat) (b : BitRange) (n : Nat) : Except Fault Col :=
  ({ c with hist := c.hist ++ [(y, ⟨b, [⟨some n, lsp⟩], true⟩)] } : Col).addDeps
    (hookupDeps E.D c.b y b [⟨some n, 0⟩])

/-- A value path connected to several port nodes (source/PortConnectionHandler.cpp:281-296, 397-405,
426-429). A path without root symbol is skipped (lines 265-271, 382-384, 419-425). -/
def Col.path (E : TravEnv) (output : Bool) (p : LspPath) (b : BitRange) (c : Col) :
    List Nat → Except Fault Col
  | [] => .ok c
  | n :: ns =>
    match p.root with
    | none => .ok c
    | some y =>
      match (if output then c.lvalue E y (E.lspId p) b n else c.rvalue E y (E.lspId p) b n) with
      | .error e => .error e
      | .ok c1 => c1.path E output p b ns

/-- Several value paths with their full bounds (source/PortConnectionHandler.cpp:259-298, 417-430). -/
def Col.paths (E : TravEnv) (output : Bool) (nodes : List Nat) (c : Col) :
    List LspPath → Except Fault Col
  | [] => .ok c
  | p :: ps =>
    match c.path E output p ⟨p.lo, p.hi⟩ nodes with
    | .error e => .error e
    | .ok c1 => c1.paths E output nodes ps

/-- Unannotated dependencies of several nodes on one (source/PortConnectionHandler.cpp:445-447). -/
def Col.plainDeps (k : Nat) (c : Col) : List Nat → Except Fault Col
  | [] => .ok c
  | n :: ns =>
    match c.b.net.call (.addEdge k n) with
    | none => .error .oob
    | some net' => ({ c with b := { c.b with net := net' } } : Col).plainDeps k ns

/-- One source of the actual's side of a segment (source/PortConnectionHandler.cpp:377-454). The
location of a constant's expression is not modelled. A path inside an opaque expression is read even
if the port is an output (lines 417-430). -/
def Col.connSrc (E : TravEnv) (output : Bool) (seg : Seg) (nodes : List Nat) (c : Col) :
    Src → Except Fault Col
  | .lsp p lo _ => c.path E output p (lspRange p lo seg) nodes
  | .opaque e => c.paths E false nodes e.paths
  | .padding _ => .ok c
  | .const v lo _ =>
    if output then .ok c
    else
      let k := constantForSegment v lo seg
      match c.b.net.call (.addNode (.constant (E.render k.1) k.2 {})) with
      | none => .error .oob
      | some net' => ({ c with b := { c.b with net := net' } } : Col).plainDeps c.b.net.g.nextNode nodes
  | .portNode .. => .error .unreachable

/-- The loop over the sources (source/PortConnectionHandler.cpp:377-454). -/
def Col.connSrcs (E : TravEnv) (output : Bool) (seg : Seg) (nodes : List Nat) (c : Col) :
    List Src → Except Fault Col
  | [] => .ok c
  | x :: xs =>
    match c.connSrc E output seg nodes x with
    | .error e => .error e
    | .ok c1 => c1.connSrcs E output seg nodes xs

/-- `drivePortSegment` (source/PortConnectionHandler.cpp:360-455) for all segments (lines 251-253). -/
def Col.connSegs (E : TravEnv) (output : Bool) (c : Col) : List Seg → Except Fault Col
  | [] => .ok c
  | seg :: segs =>
    match (if seg.portNodes = [] then .ok c
      else c.connSrcs E output seg seg.portNodes seg.rhs) with
    | .error e => .error e
    | .ok c1 => c1.connSegs E output segs

/-- The registered nodes of a port with their bounds (source/PortConnectionHandler.cpp:311, 325). -/
def Col.portNds (c : Col) (sym : Nat) : List PortNd :=
  (c.b.vars.lookupAll sym).map fun n =>
    ⟨n, (c.b.net.data n).bounds.map fun b => (b.lower.toNat, b.upper.toNat)⟩

/-- One port connection (source/NetlistBuilder.cpp:512-521, source/PortConnectionHandler.cpp:195-298).
The decision how to walk it is `handlePortConnection`. -/
def Col.connect (E : TravEnv) (c : Col) (k : Conn) : Except Fault Col :=
  match k.formal with
  | .interface => .ok c
  | .multi => .error .unreachable
  | .port sym _ =>
    match k.actual with
    | none => .ok c
    | some e =>
      match handlePortConnection E.opts.resolveBits k.integral (c.portNds sym) (E.D.width sym) e with
      | .legacy => c.paths E k.output (c.b.vars.lookupAll sym) e.paths
      | .nothing => .ok c
      | .assertFails => .error .unreachable
      | .segments segs => c.connSegs E k.output segs

/-- All port connections of an instance (source/NetlistBuilder.cpp:512-521). -/
def Col.connects (E : TravEnv) (c : Col) : List Conn → Except Fault Col
  | [] => .ok c
  | k :: ks =>
    match c.connect E k with
    | .error e => .error e
    | .ok c1 => c1.connects E ks

/-- The ports of a black-boxed body (source/NetlistBuilder.cpp:503-507). -/
def Col.boxPorts (E : TravEnv) (c : Col) : List Member → Except Fault Col
  | [] => .ok c
  | .port p :: ms =>
    match c.materialize E p with
    | .error e => .error e
    | .ok c1 => c1.boxPorts E ms
  | _ :: ms => c.boxPorts E ms

mutual
/-- The `handle` overloads (source/NetlistBuilder.cpp:425-456, 478-536, 558-562). -/
def Col.visit (E : TravEnv) (c : Col) : Member → Except Fault Col
  | .port p => c.materialize E p
  | .variable sym inInterface ds => if inInterface then c.variables E sym ds else .ok c
  | .block b => .ok { c with blocks := c.blocks ++ [b] }
  | .group uninst ms => if uninst then .ok c else c.visitAll E ms
  | .inst uninst defName path ms conns =>
    if uninst then .ok c
    else
      let c1 := if E.opts.propCuts then c.recordCuts E conns else c
      match isBlackBox E.opts.boxes defName path with
      | .error e => .error e
      | .ok true =>
        match ({ c1 with boxes := c1.boxes ++ [path] } : Col).boxPorts E ms with
        | .error e => .error e
        | .ok c2 => c2.connects E conns
      | .ok false =>
        match c1.visitAll E ms with
        | .error e => .error e
        | .ok c2 => c2.connects E conns

/-- `visitMembers` and the visit of a body (source/NetlistBuilder.cpp:509,
source/NetlistBuilder.hpp:136-140). -/
def Col.visitAll (E : TravEnv) (c : Col) : List Member → Except Fault Col
  | [] => .ok c
  | m :: ms =>
    match c.visit E m with
    | .error e => .error e
    | .ok c1 => c1.visitAll E ms
end

/-- `runPhase1` (source/BuildPipeline.cpp:20-38) without the timing, with the recordings collected. -/
def phase1 (E : TravEnv) (top : List Member) : Except Fault Col := ({} : Col).visitAll E top

/-- The builder at the end of Phase 1: the recordings are made (source/NetlistBuilder.hpp:234-244). -/
def Col.start (c : Col) : Except Fault Bld :=
  match ({} : Tracker).run [] c.hist with
  | .error e => .error e
  | .ok (t, drv) => .ok { c.b with trk := t, drv := drv }

/-- `build` and `finalize` (source/NetlistBuilder.cpp:65-67, source/BuildPipeline.cpp:142-155),
sequential. -/
def netlist (E : TravEnv) (ord : Tracker → List (Nat × Nat)) (top : List Member) :
    Except Fault NetGraph :=
  match phase1 E top with
  | .error e => .error e
  | .ok c =>
    match c.start with
    | .error e => .error e
    | .ok s => s.build E.D ord c.blocks

end Verif.Model

import Verif.Model.Script
import Verif.Model.Locks

/-!
The parallel Phase 2 in small steps (source/BuildPipeline.cpp:57-109). Any number of tasks, one per deferred
block, take atomic steps in any order. One step is one access to what the tasks share: the creation of a node,
one lookup in the variable nodes or one registration there, one step of `addEdge` or `addNewEdge` as in
`Verif.Model.Locks` (taking or releasing one mutex, or one operation on the containers of a node), or writing the
annotations of an edge. A recording of drivers is one step (its locks are those of `Verif.Model.TrackerLocks`, and it
takes no others). Pending reads go to the buffer of the task. Memory is sequentially consistent.
-/
namespace Verif.Model

/-- What an operation of a block still has to do after its first step.
* `plain`: `addDependency` without annotations (source/NetlistBuilder.cpp:69-71)
* `dep`: `addDependency` with annotations (source/NetlistBuilder.cpp:73-106)
* `into`: from a node to the variable node of a range, if there is one, with the given bounds or, if `own`, those
  of the variable node (source/NetlistBuilder.cpp:406-408, 413-417)
* `outOf`: to a node from the variable node of a range, if there is one (source/NetlistBuilder.cpp:270-272) -/
inductive TaskJob where
  | plain (x y : Nat)
  | dep (d : Dep)
  | into (x sym : Nat) (c : BitRange) (ref : SymRef) (b : BitRange) (own : Bool)
  | outOf (sym : Nat) (c : BitRange) (y : Nat) (ref : SymRef) (b : BitRange)
deriving DecidableEq

/-- Where a task is inside `addDependency` (source/NetlistBuilder.cpp:69-106).
* `free`: outside
* `edge`: in the `addEdge` of line 70
* `first`: in the `addEdge` of line 95, or about to use its result (lines 96, 103)
* `second`: in the `addNewEdge` of line 99, or about to use its result (lines 100-101) -/
inductive TaskPhase where
  | free
  | edge (x y : Nat)
  | first (d : Dep)
  | second (d : Dep)
deriving DecidableEq

/-- The builder (whose queue holds the reads of Phase 1), the mutexes of the nodes, and for every task its nodes,
its buffer, the operations and the jobs still to do, where it is, the edge the last call returned, and the
exception that ended it (source/BuildPipeline.cpp:60-93, source/NetlistBuilder.hpp:53-83). -/
structure TaskSt where
  b : Bld
  envs : Nat → List Nat := fun _ => []
  bufs : Nat → List Pending := fun _ => []
  ops : Nat → List BAct
  jobs : Nat → List TaskJob := fun _ => []
  cur : Nat → TaskPhase := fun _ => .free
  owner : Nat → Option Nat := fun _ => none
  th : Nat → LPhase := fun _ => .idle
  got : Nat → Option Edge := fun _ => none
  failed : Nat → Option Fault := fun _ => none

/-- Replace the entry of one task (modelling device for the state a task keeps to itself,
source/BuildPipeline.cpp:67-91). -/
def setAt {α : Type} (f : Nat → α) (u : Nat) (a : α) : Nat → α := fun v => if v = u then a else f v

/-- The first step of an operation: the builder and the nodes of the block after it, and what remains to be done
(citations at `BAct` and `TaskJob`). The lookup of the port node is one step (source/NetlistBuilder.cpp:298-309). -/
def Bld.start (D : Design) (s : Bld) (env : List Nat) : BAct → Except Fault (Bld × List Nat × List TaskJob)
  | .edge a b =>
    match env[a]?, env[b]? with
    | some x, some y => .ok (s, env, [.plain x y])
    | _, _ => .error .oob
  | .dep d =>
    match env[d.src]?, env[d.tgt]? with
    | some x, some y => .ok (s, env, [.dep ⟨x, y, d.sym, d.bounds, d.kind⟩])
    | _, _ => .error .oob
  | .mread r b a =>
    match env[a]? with
    | none => .error .oob
    | some n => .ok (s, env, (D.iface r.sym r.lsp).map fun v => .outOf v.1 v.2 n (D.ref r.sym) b)
  | .hook sym b l =>
    match driversOf env l with
    | none => .error .oob
    | some l' => .ok (s, env, (hookupDeps D s sym b l').map .dep)
  | .extra sym b l =>
    match driversOf env l with
    | none => .error .oob
    | some l' => .ok (s, env, l'.flatMap fun d =>
        match d.node with
        | none => []
        | some n =>
          match D.kind sym with
          | .modportPort => (D.iface sym d.lsp).map fun v => .into n v.1 v.2 (D.ref sym) v.2 false
          | .variable => [.into n sym b (D.ref sym) b true]
          | .other => [])
  | a =>
    match s.act D env a with
    | .error f => .error f
    | .ok (s', env') => .ok (s', env', [])

/-- A task begins an operation; a fault ends the task (source/BuildPipeline.cpp:73-87). -/
def TaskSt.take (D : Design) (p : TaskSt) (u : Nat) (a : BAct) (as : List BAct) : TaskSt :=
  match ({ p.b with queue := p.bufs u } : Bld).start D (p.envs u) a with
  | .error f => { p with ops := setAt p.ops u [], failed := setAt p.failed u (some f) }
  | .ok (s', env', js) => { p with
      b := { s' with queue := p.b.queue }
      envs := setAt p.envs u env'
      bufs := setAt p.bufs u s'.queue
      ops := setAt p.ops u as
      jobs := setAt p.jobs u js }

/-- A task calls `addEdge` (source/NetlistBuilder.cpp:70, 95). -/
def TaskSt.call (p : TaskSt) (u : Nat) (c : TaskPhase) (r : Req) : TaskSt :=
  { p with cur := setAt p.cur u c, th := setAt p.th u (.lockSrc r), got := setAt p.got u none }

/-- A task begins a job (citations at `TaskJob`). -/
def TaskSt.begin (p : TaskSt) (u : Nat) : TaskJob → TaskSt
  | .plain x y => p.call u (.edge x y) ⟨true, x, y⟩
  | .dep d => p.call u (.first d) ⟨true, d.src, d.tgt⟩
  | .into x sym c ref b own =>
    match p.b.vars.lookup sym c with
    | none => p
    | some vn => p.call u (.first ⟨x, vn, some ref,
        if own then ((p.b.net.data vn).bounds).getD b else b, .none⟩) ⟨true, x, vn⟩
  | .outOf sym c y ref b =>
    match p.b.vars.lookup sym c with
    | none => p
    | some vn => p.call u (.first ⟨vn, y, some ref, b, .none⟩) ⟨true, vn, y⟩

/-- Write the annotations of an edge (include/netlist/NetlistEdge.hpp:28, 41-53). -/
def TaskSt.label (p : TaskSt) (e : Edge) (a : EdgeAttr) : TaskSt :=
  { p with b := { p.b with net := { p.b.net with attr := setAt p.b.net.attr e.id a } } }

/-- A task uses the edge a call returned (source/NetlistBuilder.cpp:95-105). -/
def TaskSt.back (p : TaskSt) (u : Nat) : TaskSt :=
  match p.cur u, p.got u with
  | .first d, some e =>
    let r := (p.b.net.attr e.id).setVariable d.sym (depBounds (p.b.net.data d.src).bounds d.bounds)
    if r.2 then { p.label e { r.1 with edgeKind := d.kind } with cur := setAt p.cur u .free }
    else p.call u (.second d) ⟨false, d.src, d.tgt⟩
  | .second d, some e =>
    let r := (p.b.net.attr e.id).setVariable d.sym (depBounds (p.b.net.data d.src).bounds d.bounds)
    { p.label e { r.1 with edgeKind := d.kind } with cur := setAt p.cur u .free }
  | _, _ => { p with cur := setAt p.cur u .free }

/-- The graph and the mutexes as the threads of `Verif.Model.Locks` see them; every thread is inside its call or has
nothing to do (include/netlist/DirectedGraph.hpp:144-194). -/
def TaskSt.locks (p : TaskSt) : LSt :=
  { g := p.b.net.g, owner := p.owner, th := p.th, todo := fun _ => [] }

/-- The edge a call has just returned, if any (modelling device for the results of
include/netlist/DirectedGraph.hpp:144-194). -/
def lastEdge (l : List (Req × Edge)) : Option Edge := (l.getLast?).map Prod.snd

/-- A step inside `addEdge` or `addNewEdge` (include/netlist/DirectedGraph.hpp:144-194). A new edge starts without
annotations (include/netlist/NetlistEdge.hpp:20-26): those of the next address are cleared, as in `NetGraph.call`. -/
def TaskSt.lockStep (p : TaskSt) (u : Nat) : Option TaskSt :=
  match p.locks.step u with
  | none => none
  | some l => some { p with
      b := { p.b with net := { p.b.net with
        g := l.g
        attr := if l.g.nextEdge = p.b.net.g.nextEdge then p.b.net.attr
          else setAt p.b.net.attr p.b.net.g.nextEdge {} } }
      owner := l.owner
      th := l.th
      got := setAt p.got u (lastEdge (l.log u)) }

/-- One step of task `u` (source/BuildPipeline.cpp:66-91); `none` when it waits for a mutex or is done. -/
def TaskSt.step (D : Design) (p : TaskSt) (u : Nat) : Option TaskSt :=
  match p.cur u with
  | .free =>
    match p.jobs u with
    | j :: js => some (({ p with jobs := setAt p.jobs u js } : TaskSt).begin u j)
    | [] =>
      match p.ops u with
      | [] => none
      | a :: as => some (p.take D u a as)
  | _ => if p.th u = .idle then some (p.back u) else p.lockStep u

/-- A schedule: which task steps next (source/BuildPipeline.cpp:66-95). -/
def TaskSt.run (D : Design) (p : TaskSt) : List Nat → Option TaskSt
  | [] => some p
  | u :: l =>
    match p.step D u with
    | none => none
    | some p' => p'.run D l

/-- The tasks at the start of Phase 2 (source/BuildPipeline.cpp:57-66). -/
def TaskSt.init (s : Bld) (as : Nat → List BAct) : TaskSt := { b := s, ops := as }

end Verif.Model

import Verif.Model.Build

/-!
What the analysis of a block does to the builder, as a list of operations. One operation is one access
to what blocks share: the graph, the variable nodes, the driver maps and the queue of pending reads
(source/NetlistBuilder.hpp:53-83). The nodes a block has made are called by their position in the order
in which the block made them, so that a list of operations says nothing about the rest of the netlist.
`Verif.Props.Script` shows that every block is such a list.
-/
namespace Verif.Model

/-- One operation of a block on the builder. Numbers standing for nodes are positions in the list of the
block's own nodes.
* `node`: `createAssignment`, `createConditional`, `createCase`, `createConstant`, `merge`, and the first half of
  `createState` (source/NodeFactory.cpp:8-30, 76-81, source/NetlistBuilder.cpp:252-253)
* `edge`: the plain `addDependency` (source/NetlistBuilder.cpp:69-71)
* `dep`: the annotated `addDependency` between nodes of the block (source/NetlistBuilder.cpp:73-106)
* `read`: `enqueue` of a pending read (source/NetlistBuilder.cpp:276, 383-386)
* `mread`: a read through a modport port (source/NetlistBuilder.cpp:267-273)
* `drive`: `addDrivers` on the design's driver maps (source/NetlistBuilder.cpp:355)
* `hook`: `hookupOutputPort` (source/NetlistBuilder.cpp:280-321)
* `extra`: the dependencies on interface variables and variable nodes
  (source/NetlistBuilder.cpp:393-420)
* `reg`: the second half of `createState`, the registration of the node (source/NodeFactory.cpp:82)
* `fault`: the block's own part of the analysis goes wrong (see `Fault`). -/
inductive BAct where
  | node (d : NodeData)
  | edge (a b : Nat)
  | dep (d : Dep)
  | read (sym : Nat) (b : BitRange) (a : Option Nat) (k : EdgeKind)
  | mread (r : Ref) (b : BitRange) (a : Nat)
  | drive (sym : Nat) (b : BitRange) (l : List DriverInfo)
  | hook (sym : Nat) (b : BitRange) (l : List DriverInfo)
  | extra (sym : Nat) (b : BitRange) (l : List DriverInfo)
  | reg (sym : Nat) (b : BitRange) (a : Nat)
  | fault (f : Fault)
deriving DecidableEq

/-- The node behind a position, null for null (modelling device for the node pointers of
source/DriverMap.hpp:21-34 and source/PendingRValue.hpp:14-35); `none` if the block has not made that
node. -/
def ownNode (env : List Nat) : Option Nat → Option (Option Nat)
  | none => some none
  | some i => (env[i]?).map some

/-- The drivers behind a list of drivers by position (modelling device, source/DriverMap.hpp:21-34). -/
def driversOf (env : List Nat) : List DriverInfo → Option (List DriverInfo)
  | [] => some []
  | d :: ds =>
    match ownNode env d.node, driversOf env ds with
    | some n, some l => some (⟨n, d.lsp⟩ :: l)
    | _, _ => none

/-- One operation of a block whose nodes so far are `env` (citations at `BAct`). Using a node the block
has not made is a fault. -/
def Bld.act (D : Design) (s : Bld) (env : List Nat) : BAct → Except Fault (Bld × List Nat)
  | .node d =>
    match s.net.call (.addNode d) with
    | none => .error .oob
    | some net' => .ok ({ s with net := net' }, env ++ [s.net.g.nextNode])
  | .edge a b =>
    match env[a]?, env[b]? with
    | some x, some y =>
      match s.net.call (.addEdge x y) with
      | none => .error .oob
      | some net' => .ok ({ s with net := net' }, env)
    | _, _ => .error .oob
  | .dep d =>
    match env[d.src]?, env[d.tgt]? with
    | some x, some y =>
      match s.net.addDependency ⟨x, y, d.sym, d.bounds, d.kind⟩ with
      | none => .error .oob
      | some net' => .ok ({ s with net := net' }, env)
    | _, _ => .error .oob
  | .read sym b a k =>
    match ownNode env a with
    | none => .error .oob
    | some n => .ok ({ s with queue := s.queue ++ [⟨sym, b, n, k⟩] }, env)
  | .mread r b a =>
    match env[a]? with
    | none => .error .oob
    | some n =>
      match s.addDeps (modportDeps ⟨D, s.vars, none⟩ r b n) with
      | .error f => .error f
      | .ok s' => .ok (s', env)
  | .drive sym b l =>
    match driversOf env l with
    | none => .error .oob
    | some l' =>
      match s.trk.addDrivers s.drv sym ⟨b, l', true⟩ with
      | .error f => .error f
      | .ok (t', drv') => .ok ({ s with trk := t', drv := drv' }, env)
  | .hook sym b l =>
    match driversOf env l with
    | none => .error .oob
    | some l' =>
      match s.addDeps (hookupDeps D s sym b l') with
      | .error f => .error f
      | .ok s' => .ok (s', env)
  | .extra sym b l =>
    match driversOf env l with
    | none => .error .oob
    | some l' =>
      match s.addDeps (extraDeps D s sym b l') with
      | .error f => .error f
      | .ok s' => .ok (s', env)
  | .reg sym b a =>
    match env[a]? with
    | none => .error .oob
    | some n => .ok ({ s with vars := s.vars.insert sym b n }, env)
  | .fault f => .error f

/-- Several operations of one block, with no other block in between
(source/NetlistBuilder.cpp:538-556). -/
def Bld.acts (D : Design) (s : Bld) (env : List Nat) : List BAct → Except Fault (Bld × List Nat)
  | [] => .ok (s, env)
  | a :: as =>
    match s.act D env a with
    | .error f => .error f
    | .ok (s', env') => s'.acts D env' as

/-- Operations of several blocks in some order, each with the number of its block; `envs` holds the
nodes each block has made (source/BuildPipeline.cpp:57-109: the blocks share the builder). -/
def Bld.mixed (D : Design) (s : Bld) (envs : Nat → List Nat) :
    List (Nat × BAct) → Except Fault (Bld × (Nat → List Nat))
  | [] => .ok (s, envs)
  | (w, a) :: as =>
    match s.act D (envs w) a with
    | .error f => .error f
    | .ok (s', env') => s'.mixed D (fun v => if v = w then env' else envs v) as

/-- Operations of several blocks in some order, each block in a task of its own: the pending reads of a task
go to the buffer of the task (source/BuildPipeline.cpp:57-93, source/PendingRvalueQueue.cpp:15-35). One
operation is one step; the concurrent maps, the locks of the driver maps and those of the graph make the
single accesses behave so. -/
def Bld.tasks (D : Design) (s : Bld) (envs : Nat → List Nat) (bufs : Nat → List Pending) :
    List (Nat × BAct) → Except Fault (Bld × (Nat → List Nat) × (Nat → List Pending))
  | [] => .ok (s, envs, bufs)
  | (w, a) :: as =>
    match ({ s with queue := bufs w } : Bld).act D (envs w) a with
    | .error f => .error f
    | .ok (s', env') => ({ s' with queue := s.queue } : Bld).tasks D (fun v => if v = w then env' else envs v)
        (fun v => if v = w then s'.queue else bufs v) as

/-- `drain` (source/PendingRvalueQueue.cpp:37-60): the buffers of `k` tasks, in the order of the blocks, after
the reads of Phase 1. -/
def Bld.drain (s : Bld) (k : Nat) (bufs : Nat → List Pending) : Bld :=
  { s with queue := s.queue ++ (List.range k).flatMap bufs }

end Verif.Model

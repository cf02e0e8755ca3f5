import Verif.Model.Dataflow

/-!
Phases 2 to 4 of a build as one function: the deferred blocks are analysed and merged one after the
other, then the pending reads are resolved. `source/NetlistBuilder.cpp:538-556` and
`source/BuildPipeline.cpp:40-55, 134-155`. The parallel dispatch is modelled in
`Verif.Model.Pipeline`, the parallel resolution in `Verif.Model.Pending`.
-/
namespace Verif.Model

/-- A deferred block (source/BuildPipeline.hpp:54-57) together with what the builder reads from its
symbol: the kind and body that decide the sensitivity and the statement that is analysed, or the
assignment of a continuous assignment. The body appears twice, as seen by `collectSensitivity` and as
seen by the analysis; they are independent here, so every theorem covers all combinations. -/
inductive Deferred where
  | procedural (kind : ProcKind) (body : ProcBody) (st : Stmt)
  | continuous (loc : TextLoc) (a : Asg)

/-- What is analysed (source/NetlistBuilder.cpp:543, 553). A continuous assignment is not
non-blocking (source/DataFlowAnalysis.cpp:237, 285), so it is analysed as a blocking one. -/
def Deferred.stmt : Deferred → Stmt
  | .procedural _ _ st => st
  | .continuous loc a => .assign loc true a

/-- `mergeDrivers` on the result of an analysis (source/NetlistBuilder.cpp:545-546, 554-555). The
analysis has written to the graph and the queue of the builder; `ord` is the order in which the hash
map of the block's signals is traversed. -/
def Bld.mergeBlock (D : Design) (ord : Tracker → List (Nat × Nat)) (sens : List SensEntry) (s : Bld)
    (d : Dfa) : Except Fault Bld :=
  match drivenOf d.cur.drv (ord d.trk) with
  | .error e => .error e
  | .ok ws => ({ s with net := d.net, queue := d.queue } : Bld).mergeDrivers D sens ws

/-- `handleProceduralBlock` (source/NetlistBuilder.cpp:538-547). The analysis starts without an
external node (source/DataFlowAnalysis.hpp:82, 98). -/
def Bld.handleProcedural (D : Design) (ord : Tracker → List (Nat × Nat)) (s : Bld) (k : ProcKind)
    (body : ProcBody) (st : Stmt) : Except Fault Bld :=
  match collectSensitivity k body with
  | .error e => .error e
  | .ok sens =>
    match ({ net := s.net, queue := s.queue } : Dfa).runBlock ⟨D, s.vars, none⟩ st with
    | .error e => .error e
    | .ok d => s.mergeBlock D ord sens d

/-- `handleContinuousAssign` (source/NetlistBuilder.cpp:549-556): no `finalize`, no sensitivity. -/
def Bld.handleContinuous (D : Design) (ord : Tracker → List (Nat × Nat)) (s : Bld) (loc : TextLoc)
    (a : Asg) : Except Fault Bld :=
  match ({ net := s.net, queue := s.queue } : Dfa).exec ⟨D, s.vars, none⟩ (.assign loc true a) with
  | .error e => .error e
  | .ok d => s.mergeBlock D ord [] d

/-- The dispatch on the kind of block (source/BuildPipeline.cpp:45-51). -/
def Bld.handleBlock (D : Design) (ord : Tracker → List (Nat × Nat)) (s : Bld) :
    Deferred → Except Fault Bld
  | .procedural k body st => s.handleProcedural D ord k body st
  | .continuous loc a => s.handleContinuous D ord loc a

/-- `runPhase2Sequential` (source/BuildPipeline.cpp:40-55), without the timing. -/
def Bld.runBlocks (D : Design) (ord : Tracker → List (Nat × Nat)) (s : Bld) :
    List Deferred → Except Fault Bld
  | [] => .ok s
  | b :: bs =>
    match s.handleBlock D ord b with
    | .error e => .error e
    | .ok s' => s'.runBlocks D ord bs

/-- What resolution reads from the builder (source/PendingRvalueQueue.cpp:69, 72, 85-86). -/
def Bld.ctx (D : Design) (s : Bld) : ResolveCtx := ⟨s.vars, s.trk, s.drv, D.ref⟩

/-- `run` and `finalize` from the end of Phase 1 (source/BuildPipeline.cpp:142-155), sequential. -/
def Bld.build (D : Design) (ord : Tracker → List (Nat × Nat)) (s : Bld) (bs : List Deferred) :
    Except Fault NetGraph :=
  match s.runBlocks D ord bs with
  | .error e => .error e
  | .ok s' => resolveSequential (s'.ctx D) s'.net s'.queue

end Verif.Model

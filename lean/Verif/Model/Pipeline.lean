/-!
Phase 2 and 3 of the build (source/BuildPipeline.cpp:40-109) and the queue of pending reads they fill
(source/PendingRvalueQueue.cpp:15-60). The parallel mode is a step machine: the main thread and any
number of worker threads take atomic steps in any order. One step is one operation on shared data.
Memory is sequentially consistent.

The analysis of a block is a program over the rest of the builder's state (the graph, the variable
nodes, the driver maps), which has an arbitrary type here: it can read and change that state, and
what it does next may depend on it. Node pointers inside a queued read stand for the object they
point to, so reads have an arbitrary type too.

Not modelled: the thread pool's own queue beyond first in, first out; time measurements; exceptions
not derived from `std::exception`, which the handler at source/BuildPipeline.cpp:82 does not catch.
-/
namespace Verif.Model

/-- The analysis of one deferred block (`handleProceduralBlock`, `handleContinuousAssign`,
source/NetlistBuilder.cpp:538-556), as the operations it performs: finish, throw, `enqueue` a read,
or read and change the shared state. -/
inductive Task (σ α ε : Type) where
  | ret
  | thr (e : ε)
  | enq (a : α) (k : Task σ α ε)
  | act (f : σ → σ) (k : σ → Task σ α ε)

variable {σ α ε : Type}

/-- The outcome of a piece of sequential work: the shared state, the queue, and the exception that
ended it, if any (source/BuildPipeline.cpp:40-55). -/
structure SeqOut (σ α ε : Type) where
  shared : σ
  queue : List α
  exn : Option ε

/-- Run one block on the main thread. `threadLocalDeferredWork` is null there, so `enqueue` appends to
the shared queue (source/PendingRvalueQueue.cpp:25, 28-30). -/
def Task.runSeq : Task σ α ε → σ → List α → SeqOut σ α ε
  | .ret, s, q => ⟨s, q, none⟩
  | .thr e, s, q => ⟨s, q, some e⟩
  | .enq a k, s, q => k.runSeq s (q ++ [a])
  | .act f k, s, q => (k s).runSeq (f s) q

/-- `runPhase2Sequential` (source/BuildPipeline.cpp:40-55): the blocks in order; an exception leaves
the loop. -/
def runPhase2Sequential : List (Task σ α ε) → σ → List α → SeqOut σ α ε
  | [], s, q => ⟨s, q, none⟩
  | t :: ts, s, q =>
    match t.runSeq s q with
    | ⟨s', q', none⟩ => runPhase2Sequential ts s' q'
    | r => r

/-- Where a worker is inside the body of a task (source/BuildPipeline.cpp:67-89); `i` is the index of
the block. -/
inductive WPc (σ α ε : Type) where
  /-- waiting for a task -/
  | idle
  /-- before `setTaskBuffer(&work)` (line 71) -/
  | start (i : Nat)
  /-- inside the analysis (lines 73-81), `k` is what is left of it -/
  | body (i : Nat) (k : Task σ α ε)
  /-- before taking the mutex in the handler (line 83) -/
  | want (i : Nat) (e : ε)
  /-- holding the mutex, before recording (lines 84-86) -/
  | save (i : Nat) (e : ε)
  /-- before `setTaskBuffer(nullptr)` (line 88) -/
  | finish (i : Nat)

/-- Where the main thread is inside `runPhase2Parallel` (source/BuildPipeline.cpp:57-109). -/
inductive MPc (ε : Type) where
  /-- before submitting block `i`, if there is one (lines 66-92) -/
  | submit (i : Nat)
  /-- in `wait` (line 94) -/
  | wait
  /-- before testing `pendingException` (line 100) -/
  | check
  /-- in `drain`, before moving buffer `i` (source/PendingRvalueQueue.cpp:48-56) -/
  | drain (i : Nat)
  /-- returned -/
  | done
  /-- left by an exception (line 100) -/
  | thrown (e : ε)

/-- The state shared by the threads. `next` is the first block no worker has taken, `avail` the number
submitted; `tls` is `threadLocalDeferredWork` per worker (source/PendingRvalueQueue.cpp:15-17), a
pointer into `allWork` given as an index; `bufs` is `allWork` (source/BuildPipeline.cpp:63);
`moved` is `deferredPendingRValueCount` (source/PendingRvalueQueue.cpp:49). -/
structure Par (σ α ε : Type) where
  shared : σ
  queue : List α
  avail : Nat := 0
  next : Nat := 0
  th : Nat → WPc σ α ε := fun _ => .idle
  tls : Nat → Option Nat := fun _ => none
  bufs : Nat → List α := fun _ => []
  lock : Option Nat := none
  exn : Option ε := none
  main : MPc ε := .submit 0
  moved : Nat := 0

/-- Move worker `w` to another place (modelling device for source/BuildPipeline.cpp:67-91). -/
def Par.goto (s : Par σ α ε) (w : Nat) (p : WPc σ α ε) : Par σ α ε :=
  { s with th := fun u => if u = w then p else s.th u }

/-- Set worker `w`'s `threadLocalDeferredWork` (`setTaskBuffer`,
source/PendingRvalueQueue.cpp:33-35). -/
def Par.setTaskBuffer (s : Par σ α ε) (w : Nat) (b : Option Nat) : Par σ α ε :=
  { s with tls := fun u => if u = w then b else s.tls u }

/-- `enqueue` by worker `w` (source/PendingRvalueQueue.cpp:21-31): into the task's buffer if the
thread has one, into the shared queue otherwise. -/
def Par.enqueue (s : Par σ α ε) (w : Nat) (a : α) : Par σ α ε :=
  match s.tls w with
  | some i => { s with bufs := fun j => if j = i then s.bufs i ++ [a] else s.bufs j }
  | none => { s with queue := s.queue ++ [a] }

/-- One step of worker `w`; `none` when it cannot move (source/BuildPipeline.cpp:67-89). `ts` are the
deferred blocks. -/
def Par.worker (ts : List (Task σ α ε)) (s : Par σ α ε) (w : Nat) : Option (Par σ α ε) :=
  match s.th w with
  | .idle =>
    if s.next < s.avail then some (({ s with next := s.next + 1 } : Par σ α ε).goto w (.start s.next))
    else none
  | .start i =>
    match ts[i]? with
    | none => none
    | some t => some ((s.setTaskBuffer w (some i)).goto w (.body i t))
  | .body i .ret => some (s.goto w (.finish i))
  | .body i (.thr e) => some (s.goto w (.want i e))
  | .body i (.enq a k) => some ((s.enqueue w a).goto w (.body i k))
  | .body i (.act f k) =>
    some (({ s with shared := f s.shared } : Par σ α ε).goto w (.body i (k s.shared)))
  | .want i e =>
    if s.lock = none then some (({ s with lock := some w } : Par σ α ε).goto w (.save i e)) else none
  | .save i e =>
    some (({ s with exn := s.exn.or (some e), lock := none } : Par σ α ε).goto w (.finish i))
  | .finish _ => some ((s.setTaskBuffer w none).goto w .idle)

/-- Every one of the `W` workers is waiting for a task (the condition of `wait`,
source/BuildPipeline.cpp:94). -/
def Par.quiet (W : Nat) (s : Par σ α ε) : Bool :=
  (List.range W).all fun w => match s.th w with | .idle => true | _ => false

/-- One step of the main thread (source/BuildPipeline.cpp:57-109, source/PendingRvalueQueue.cpp:37-60);
`wait` returns when no submitted task is left and none is running. -/
def Par.mainStep (ts : List (Task σ α ε)) (W : Nat) (s : Par σ α ε) : Option (Par σ α ε) :=
  match s.main with
  | .submit i =>
    if i < ts.length then some { s with avail := i + 1, main := .submit (i + 1) }
    else some { s with main := .wait }
  | .wait => if s.next = s.avail ∧ s.quiet W then some { s with main := .check } else none
  | .check =>
    match s.exn with
    | some e => some { s with main := .thrown e }
    | none => some { s with main := .drain 0 }
  | .drain i =>
    if i < ts.length then
      some { s with queue := s.queue ++ s.bufs i, moved := s.moved + (s.bufs i).length, bufs := fun j => if j = i then [] else s.bufs j, main := .drain (i + 1) }
    else some { s with main := .done }
  | .done => none
  | .thrown _ => none

/-- One step of some thread of a pool of `W` workers: `none` is the main thread
(source/BuildPipeline.cpp:57-109). -/
def Par.step (ts : List (Task σ α ε)) (W : Nat) (s : Par σ α ε) : Option Nat → Option (Par σ α ε)
  | none => s.mainStep ts W
  | some w => if w < W then s.worker ts w else none

/-- The state on entry of `runPhase2Parallel` (source/BuildPipeline.cpp:57-63): phase 1 has left the
shared state and the reads of the ports in `queue`. -/
def Par.init (shared : σ) (queue : List α) : Par σ α ε := { shared := shared, queue := queue }

/-- Follow a schedule; a thread that cannot move is skipped (source/BuildPipeline.cpp:57-109). -/
def Par.run (ts : List (Task σ α ε)) (W : Nat) (s : Par σ α ε) : List (Option Nat) → Par σ α ε
  | [] => s
  | t :: sched => ((s.step ts W t).getD s).run ts W sched

end Verif.Model

import Verif.Model.Serial

/-!
Symbol references during a build: the thread-local cache in front of the symbol table
(source/NetlistBuilder.cpp:22-63) and the places where the build empties it
(source/BuildPipeline.cpp:26, 43, 72; source/PendingRvalueQueue.cpp:143). Interning is taken as one
step (see `Verif.Model.Intern` for its steps). Any number of builds and threads share the process.
-/
namespace Verif.Model

/-- What a thread does with its cache: empty it (source/NetlistBuilder.cpp:32-34), or ask for the
reference of the symbol at address `y` for graph `g` (source/NetlistBuilder.cpp:53-63). -/
inductive RefOp where
  | clear
  | use (g y : Nat)
deriving DecidableEq

/-- The tables of all graphs, the caches of all threads, and the answers given so far, newest first
(source/NetlistBuilder.cpp:27-28, include/netlist/SymbolReference.hpp:34-39). A pointer to an entry is the
graph that owns the table and the position in it. -/
structure RefSt where
  tabs : Nat → List SymRef := fun _ => []
  cache : Nat → Nat → Option (Nat × Nat) := fun _ _ => none
  log : List (Nat × Nat × Nat × Nat) := []

/-- `SymbolTable::intern` as one step (include/netlist/SymbolReference.hpp:44-61). -/
def internAt (tab : List SymRef) (s : SymRef) : List SymRef × Nat :=
  match tab.findIdx? fun r => decide (r.path = s.path) with
  | some i => (tab, i)
  | none => (tab ++ [s], tab.length)

/-- `toSymbolRef` by thread `t` (source/NetlistBuilder.cpp:53-63). `D g y` is the record of the symbol at
address `y` in the compilation of graph `g`; another compilation may have another symbol there. -/
def RefSt.use (D : Nat → Nat → SymRef) (s : RefSt) (t g y : Nat) : RefSt :=
  match s.cache t y with
  | some r => { s with log := (g, y, r) :: s.log }
  | none =>
    let r := internAt (s.tabs g) (D g y)
    { tabs := fun k => if k = g then r.1 else s.tabs k
      cache := fun u z => if u = t ∧ z = y then some (g, r.2) else s.cache u z
      log := (g, y, g, r.2) :: s.log }

/-- One operation of thread `t` (source/NetlistBuilder.cpp:32-34, 53-63). -/
def RefSt.step (D : Nat → Nat → SymRef) (s : RefSt) (t : Nat) : RefOp → RefSt
  | .clear => { s with cache := fun u => if u = t then fun _ => none else s.cache u }
  | .use g y => s.use D t g y

/-- Operations of all threads in the order in which they happen (modelling device for
source/NetlistBuilder.cpp:53-63 called from several threads). -/
def RefSt.run (D : Nat → Nat → SymRef) (s : RefSt) : List (Nat × RefOp) → RefSt
  | [] => s
  | (t, op) :: l => RefSt.run D (s.step D t op) l

/-- What a thread is given to do. `build`: the calling thread of `NetlistGraph::build`
(source/NetlistGraph.cpp:18-25): phase 1 after emptying the cache (source/BuildPipeline.cpp:20-37), the
blocks in phase 2 after emptying it again if they are not handed to a pool
(source/BuildPipeline.cpp:40-55), and the reads resolved at the end by this thread
(source/PendingRvalueQueue.cpp:101-106). `task`: a block or a chunk of reads on a thread of the pool
(source/BuildPipeline.cpp:68-92, source/PendingRvalueQueue.cpp:141-155). Only the symbols asked for are
kept. -/
inductive RefJob where
  | build (g : Nat) (parallel : Bool) (phase1 phase2 resolve : List Nat)
  | task (g : Nat) (ys : List Nat)

/-- The operations of a job (source/BuildPipeline.cpp:20-92, source/PendingRvalueQueue.cpp:101-155). -/
def RefJob.ops : RefJob → List RefOp
  | .build g par p1 p2 fin =>
    .clear :: (p1.map (.use g) ++ ((if par then [] else .clear :: p2.map (.use g)) ++ fin.map (.use g)))
  | .task g ys => .clear :: ys.map (.use g)

/-- `toTextLocation` (source/NetlistBuilder.cpp:44-51): nothing for a symbol without a location,
otherwise the index of the file in the table, which is extended if needed. -/
def toTextLocation (files : List Str) : Option (Str × Nat × Nat) → List Str × TextLoc
  | none => (files, {})
  | some (name, line, col) => (addFileSeq files name, ⟨(addFileSeq files name).idxOf name, line, col⟩)

end Verif.Model

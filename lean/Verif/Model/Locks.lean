import Verif.Model.DirectedGraph

/-!
Concurrent edge insertion: the locking in `Node::addEdge` and `Node::addNewEdge`
(include/netlist/DirectedGraph.hpp:133-194). Any number of threads, each with a list of insertions to
perform, take atomic steps in any order. One step is taking or releasing one mutex, or one operation
on the containers of a node while the code holds that node's mutex. Memory is sequentially
consistent. Edge objects get their address when they are pushed (lines 150 and 172 allocate before taking the
mutex; only the identity of the object matters). Exceptions from allocation are not modelled.
-/
namespace Verif.Model

/-- One call: `addEdge` if `dedup`, otherwise `addNewEdge`
(include/netlist/DirectedGraph.hpp:144, 170). -/
structure Req where
  dedup : Bool
  src : Nat
  tgt : Nat
deriving DecidableEq, Repr

/-- Where a thread is inside a call (include/netlist/DirectedGraph.hpp:144-194). -/
inductive LPhase where
  /-- outside any call -/
  | idle
  /-- before locking the source (lines 146, 175, 184) -/
  | lockSrc (r : Req)
  /-- `addEdge`, before looking for an existing edge (line 147) -/
  | look (r : Req)
  /-- before pushing on `outEdges` and updating the index (lines 150-153, 176-180, 185-186) -/
  | pushOut (r : Req)
  /-- `addNewEdge`, before releasing the source (line 187) -/
  | unlockEarly (r : Req) (e : Edge)
  /-- before locking the target (lines 157, 189) -/
  | lockTgt (r : Req) (e : Edge)
  /-- before pushing on `inEdges` (lines 155, 158, 181, 190) -/
  | pushIn (r : Req) (e : Edge)
  /-- before releasing the target (lines 159, 191) -/
  | unlockTgt (r : Req) (e : Edge)
  /-- before releasing the source and returning (lines 148, 160-161, 182) -/
  | unlockSrc (r : Req) (e : Edge)
deriving DecidableEq

/-- The graph, the mutex of every node (the thread holding it), and per thread the phase, the calls
still to make and the calls made with the edge returned (include/netlist/DirectedGraph.hpp:264-283
for the protected data). -/
structure LSt where
  g : DGraph
  owner : Nat → Option Nat := fun _ => none
  th : Nat → LPhase := fun _ => .idle
  todo : Nat → List Req
  log : Nat → List (Req × Edge) := fun _ => []

/-- Move thread `u` to another phase (modelling device for include/netlist/DirectedGraph.hpp:144-194). -/
def LSt.goto (s : LSt) (u : Nat) (p : LPhase) : LSt :=
  { s with th := fun v => if v = u then p else s.th v }

/-- Set the owner of a node's mutex (include/netlist/DirectedGraph.hpp:268). -/
def LSt.own (s : LSt) (n : Nat) (o : Option Nat) : LSt :=
  { s with owner := fun m => if m = n then o else s.owner m }

/-- Return from a call (include/netlist/DirectedGraph.hpp:148, 160, 193). -/
def LSt.ret (s : LSt) (u : Nat) (r : Req) (e : Edge) : LSt :=
  { s.goto u .idle with log := fun v => if v = u then s.log u ++ [(r, e)] else s.log v }

/-- One step of thread `u` in a given phase (include/netlist/DirectedGraph.hpp:144-194). `none` when
the thread waits for a mutex or has nothing left to do. -/
def LSt.stepAt (s : LSt) (u : Nat) : LPhase → Option LSt
  | .idle =>
    match s.todo u with
    | [] => none
    | r :: rest =>
      some { s.goto u (.lockSrc r) with todo := fun v => if v = u then rest else s.todo v }
  | .lockSrc r =>
    match s.owner r.src with
    | some _ => none
    | none => some ((s.own r.src (some u)).goto u (if r.dedup then .look r else .pushOut r))
  | .look r =>
    match lookupOutEdge (s.g.obj r.src) r.tgt with
    | some e => some (s.goto u (.unlockSrc r e))
    | none => some (s.goto u (.pushOut r))
  | .pushOut r =>
    let e : Edge := ⟨s.g.nextEdge, r.src, r.tgt⟩
    let s := { s with g := { s.g.upd r.src (fun n => pushOut n e) with nextEdge := s.g.nextEdge + 1 } }
    some (s.goto u (if r.src = r.tgt then .pushIn r e
      else if r.dedup then .lockTgt r e else .unlockEarly r e))
  | .unlockEarly r e => some ((s.own r.src none).goto u (.lockTgt r e))
  | .lockTgt r e =>
    match s.owner r.tgt with
    | some _ => none
    | none => some ((s.own r.tgt (some u)).goto u (.pushIn r e))
  | .pushIn r e =>
    let s := { s with g := s.g.upd r.tgt fun n => pushIn n e }
    some (s.goto u (if r.src = r.tgt then .unlockSrc r e else .unlockTgt r e))
  | .unlockTgt r e =>
    let s := s.own r.tgt none
    some (if r.dedup then s.goto u (.unlockSrc r e) else s.ret u r e)
  | .unlockSrc r e => some ((s.own r.src none).ret u r e)

/-- One step of thread `u` (include/netlist/DirectedGraph.hpp:144-194). -/
def LSt.step (s : LSt) (u : Nat) : Option LSt := s.stepAt u (s.th u)

/-- A schedule: which thread steps next (include/netlist/DirectedGraph.hpp:144-194). -/
def LSt.run (s : LSt) : List Nat → Option LSt
  | [] => some s
  | u :: l =>
    match s.step u with
    | none => none
    | some s' => LSt.run s' l

/-- Threads about to make the given calls on a graph no thread is using (the tasks of
source/PendingRvalueQueue.cpp:141-155 and source/BuildPipeline.cpp:66-89, reduced to their edge
insertions). -/
def LSt.begin (g : DGraph) (prog : List (List Req)) : LSt :=
  { g := g, todo := fun u => (prog[u]?).getD [] }

end Verif.Model

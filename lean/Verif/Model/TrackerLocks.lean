import Verif.Model.ValueTracker

/-!
Concurrent recording of drivers: the locking in `ValueTracker::addDrivers`
(source/ValueTracker.cpp:13-71). Any number of threads, each with a list of recordings to make, take
atomic steps in any order. One step is one access to the concurrent maps or the counter, taking or
releasing one lock, the two tests of the sizes, the growing of the vectors, getting the reference to the
driver map, or the update through that reference. Memory is sequentially consistent. Exceptions from
allocation are not modelled.
-/
namespace Verif.Model

/-- Where a thread is inside a call of `addDrivers` for a symbol and a recording, with the slot once it
is known (source/ValueTracker.cpp:13-284). -/
inductive VPhase where
  /-- outside any call -/
  | idle
  /-- before looking for the slot (lines 22-23) -/
  | find (c : Nat × Rec)
  /-- before drawing a number from the counter (line 28) -/
  | draw (c : Nat × Rec)
  /-- before `try_emplace_or_cvisit` (lines 29-31) -/
  | emplace (c : Nat × Rec) (cand : Nat)
  /-- before entering the slot in the reverse mapping (line 34) -/
  | name (c : Nat × Rec) (i : Nat)
  /-- before locking the vectors shared (line 48) -/
  | enter (c : Nat × Rec) (i : Nat)
  /-- before testing the sizes (line 49) -/
  | check (c : Nat × Rec) (i : Nat)
  /-- before releasing the shared lock (line 50) -/
  | release (c : Nat × Rec) (i : Nat)
  /-- before locking the vectors exclusively (line 51) -/
  | upgrade (c : Nat × Rec) (i : Nat)
  /-- before growing the vectors (lines 52-63) -/
  | grow (c : Nat × Rec) (i : Nat)
  /-- before releasing the exclusive lock (line 64) -/
  | downgrade (c : Nat × Rec) (i : Nat)
  /-- before locking the vectors shared again (line 65) -/
  | reenter (c : Nat × Rec) (i : Nat)
  /-- before locking the slot (line 70) -/
  | lock (c : Nat × Rec) (i : Nat)
  /-- before taking the reference to the driver map (line 81) -/
  | refer (c : Nat × Rec) (i : Nat)
  /-- before the update, having seen the map `m` when the vector had been reallocated `g` times
  (lines 83-284) -/
  | update (c : Nat × Rec) (i : Nat) (m : DMap) (g : Nat)
  /-- before releasing the slot (the end of `slotLock`, line 70) -/
  | unlock (c : Nat × Rec) (i : Nat)
  /-- before releasing the shared lock (the end of `readLock`, line 48) -/
  | leave (c : Nat × Rec) (i : Nat)

/-- The tracker (source/ValueTracker.hpp:52-67): the slots of symbols and the counter, the reverse
mapping, the vector of driver maps, the length of the vectors of mutexes and allocators, how often the vector of
driver maps was reallocated (every growth counts; modelling device for dangling references), who holds
the shared lock, who the exclusive one, who the lock of each slot; per thread the phase and the calls still to
make; and the calls in the order of their updates (modelling device). -/
structure VSt where
  trk : Tracker := {}
  names : List (Nat × Nat) := []
  drv : List DMap := []
  mem : Nat := 0
  gen : Nat := 0
  readers : List Nat := []
  writer : Option Nat := none
  slot : Nat → Option Nat := fun _ => none
  th : Nat → VPhase := fun _ => .idle
  todo : Nat → List (Nat × Rec)
  log : List (Nat × Nat × Rec) := []

/-- Move thread `u` to another phase (modelling device for source/ValueTracker.cpp:13-284). -/
def VSt.goto (s : VSt) (u : Nat) (p : VPhase) : VSt :=
  { s with th := fun v => if v = u then p else s.th v }

/-- Set the holder of the lock of a slot (source/ValueTracker.hpp:55). -/
def VSt.hold (s : VSt) (i : Nat) (o : Option Nat) : VSt :=
  { s with slot := fun j => if j = i then o else s.slot j }

/-- One step of thread `u` in a given phase (source/ValueTracker.cpp:13-284). `none` when the thread waits
for a lock or has nothing left to do. Access beyond the end of a vector or through a dangling reference
is a fault. -/
def VSt.stepAt (s : VSt) (u : Nat) : VPhase → Option (Except Fault VSt)
  | .idle =>
    match s.todo u with
    | [] => none
    | c :: rest =>
      some (.ok { s.goto u (.find c) with todo := fun v => if v = u then rest else s.todo v })
  | .find c =>
    match s.trk.getSlot c.1 with
    | some i => some (.ok (s.goto u (.enter c i)))
    | none => some (.ok (s.goto u (.draw c)))
  | .draw c =>
    some (.ok { s.goto u (.emplace c s.trk.next) with trk := { s.trk with next := s.trk.next + 1 } })
  | .emplace c cand =>
    match s.trk.getSlot c.1 with
    | some i => some (.ok (s.goto u (.enter c i)))
    | none => some (.ok { s.goto u (.name c cand) with
        trk := { s.trk with slots := s.trk.slots ++ [(c.1, cand)] } })
  | .name c i => some (.ok { s.goto u (.enter c i) with names := s.names ++ [(i, c.1)] })
  | .enter c i =>
    match s.writer with
    | some _ => none
    | none => some (.ok { s.goto u (.check c i) with readers := u :: s.readers })
  | .check c i =>
    some (.ok (s.goto u (if s.drv.length ≤ i ∨ s.mem ≤ i then .release c i else .lock c i)))
  | .release c i => some (.ok { s.goto u (.upgrade c i) with readers := s.readers.erase u })
  | .upgrade c i =>
    match s.writer, s.readers with
    | none, [] => some (.ok { s.goto u (.grow c i) with writer := some u })
    | _, _ => none
  | .grow c i =>
    some (.ok { s.goto u (.downgrade c i) with
      drv := growTo s.drv i
      gen := if s.drv.length ≤ i then s.gen + 1 else s.gen
      mem := if s.mem ≤ i then i + 1 else s.mem })
  | .downgrade c i => some (.ok { s.goto u (.reenter c i) with writer := none })
  | .reenter c i =>
    match s.writer with
    | some _ => none
    | none => some (.ok { s.goto u (.lock c i) with readers := u :: s.readers })
  | .lock c i =>
    if s.mem ≤ i then some (.error .oob)
    else
      match s.slot i with
      | some _ => none
      | none => some (.ok ((s.hold i (some u)).goto u (.refer c i)))
  | .refer c i =>
    match s.drv[i]? with
    | none => some (.error .oob)
    | some m => some (.ok (s.goto u (.update c i m s.gen)))
  | .update c i m g =>
    if g ≠ s.gen then some (.error .oob)
    else
      match m.addDrivers c.2.bounds c.2.drivers c.2.merge with
      | .error f => some (.error f)
      | .ok m' => some (.ok { s.goto u (.unlock c i) with drv := s.drv.set i m', log := s.log ++ [(u, c)] })
  | .unlock c i => some (.ok ((s.hold i none).goto u (.leave c i)))
  | .leave _ _ => some (.ok { s.goto u .idle with readers := s.readers.erase u })

/-- One step of thread `u` (source/ValueTracker.cpp:13-284). -/
def VSt.step (s : VSt) (u : Nat) : Option (Except Fault VSt) := s.stepAt u (s.th u)

/-- A schedule: which thread steps next (source/ValueTracker.cpp:13-284). `none` if a thread is to step that
cannot; a fault ends the run. -/
def VSt.run (s : VSt) : List Nat → Option (Except Fault VSt)
  | [] => some (.ok s)
  | u :: l =>
    match s.step u with
    | none => none
    | some (.error f) => if l = [] then some (.error f) else none
    | some (.ok s') => VSt.run s' l

/-- Threads about to record drivers in a tracker that no thread is using, as Phase 1 leaves it (the tasks of
source/BuildPipeline.cpp:66-89, reduced to their recordings). -/
def VSt.begin (t : Tracker) (names : List (Nat × Nat)) (drv : List DMap) (mem : Nat)
    (prog : List (List (Nat × Rec))) : VSt :=
  { trk := t, names := names, drv := drv, mem := mem, todo := fun u => (prog[u]?).getD [] }

end Verif.Model

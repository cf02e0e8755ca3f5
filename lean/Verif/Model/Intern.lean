import Verif.Model.NetGraph

/-!
Concurrent interning: `FileTable` (include/netlist/TextLocation.hpp:20-63) and `SymbolTable`
(include/netlist/SymbolReference.hpp:34-70). Both tables run the same protocol, so they are two
instances of one step machine in which any number of threads take atomic steps in any order. One
step is one operation on shared data: a look-up in the concurrent map, taking or releasing the mutex,
appending to the deque, inserting into the map. Memory is sequentially consistent; the atomicity of
`visit` and `emplace` is the library's. Unlocked reads of the deque (`getFilename`, `size`) while
another thread appends are not modelled.
-/
namespace Verif.Model

/-- Where a thread is inside `addFile`/`intern` (include/netlist/TextLocation.hpp:32-45,
include/netlist/SymbolReference.hpp:44-61). -/
inductive IPhase (α : Type) where
  /-- outside any call -/
  | idle
  /-- before the unlocked look-up (TextLocation.hpp:34, SymbolReference.hpp:47) -/
  | first (a : α)
  /-- before taking the mutex (TextLocation.hpp:37, SymbolReference.hpp:51) -/
  | want (a : α)
  /-- before the look-up under the mutex (TextLocation.hpp:38, SymbolReference.hpp:52) -/
  | second (a : α)
  /-- before appending (TextLocation.hpp:41-42, SymbolReference.hpp:56) -/
  | store (a : α)
  /-- before inserting the index (TextLocation.hpp:43, SymbolReference.hpp:59) -/
  | publish (a : α) (i : Nat)
  /-- before releasing the mutex at the end of the scope, returning `r`
  (TextLocation.hpp:39, 44, SymbolReference.hpp:54, 60) -/
  | leave (a : α) (r : Nat)

/-- How a table is keyed and how an entry's position becomes the value returned
(include/netlist/TextLocation.hpp:41-44, include/netlist/SymbolReference.hpp:56-60). -/
structure ICfg (α : Type) where
  key : α → Str
  index : Nat → Nat

/-- `FileTable`: keyed by the name itself, the index is cast to 32 bits
(include/netlist/TextLocation.hpp:41). -/
def fileCfg : ICfg Str := ⟨id, fun n => n % 4294967296⟩

/-- `SymbolTable`: keyed by path; the value is a pointer to the entry, modelled as its position in
the deque (include/netlist/SymbolReference.hpp:56-60). -/
def symCfg : ICfg SymRef := ⟨SymRef.path, id⟩

/-- The shared table and the threads. `log` records finished calls with their result, newest first
(include/netlist/TextLocation.hpp:20-25, include/netlist/SymbolReference.hpp:34-39). -/
structure ITab (α : Type) where
  entries : List α := []
  map : Str → Option Nat := fun _ => none
  lock : Option Nat := none
  th : Nat → IPhase α := fun _ => .idle
  log : List (α × Nat) := []

/-- Move thread `t` to another phase (modelling device for include/netlist/TextLocation.hpp:32-45). -/
def ITab.goto {α : Type} (s : ITab α) (t : Nat) (p : IPhase α) : ITab α :=
  { s with th := fun u => if u = t then p else s.th u }

/-- One step of thread `t` (include/netlist/TextLocation.hpp:32-45,
include/netlist/SymbolReference.hpp:44-61). An idle thread starts a call with argument `a`. `none`
when the thread waits for the mutex. -/
def ITab.step {α : Type} (cfg : ICfg α) (s : ITab α) (t : Nat) (a : α) : Option (ITab α) :=
  match s.th t with
  | .idle => some (s.goto t (.first a))
  | .first b =>
    match s.map (cfg.key b) with
    | some r => some { s.goto t .idle with log := (b, r) :: s.log }
    | none => some (s.goto t (.want b))
  | .want b =>
    match s.lock with
    | some _ => none
    | none => some { s.goto t (.second b) with lock := some t }
  | .second b =>
    match s.map (cfg.key b) with
    | some r => some (s.goto t (.leave b r))
    | none => some (s.goto t (.store b))
  | .store b =>
    some { s.goto t (.publish b (cfg.index s.entries.length)) with entries := s.entries ++ [b] }
  | .publish b i =>
    some { s.goto t (.leave b i) with
      map := fun k => if k = cfg.key b then some ((s.map k).getD i) else s.map k }
  | .leave b r => some { s.goto t .idle with lock := none, log := (b, r) :: s.log }

/-- A schedule: which thread steps, and the argument should it start a call
(include/netlist/TextLocation.hpp:32-45, include/netlist/SymbolReference.hpp:44-61). -/
def ITab.run {α : Type} (cfg : ICfg α) (s : ITab α) : List (Nat × α) → Option (ITab α)
  | [] => some s
  | (t, a) :: l =>
    match s.step cfg t a with
    | none => none
    | some s' => ITab.run cfg s' l

/-- `getFilename` (include/netlist/TextLocation.hpp:54-59); `none` is the exception of `at`. -/
def getFilename (s : ITab Str) (i : Nat) : Option Str :=
  if i = noFile then some [] else s.entries[i]?

end Verif.Model

/-!
Handle-based storage: `ExternalManager<T>` (source/ExternalManager.hpp:21-125).
-/
namespace Verif.Model

/-- `slots` and `freeList` (source/ExternalManager.hpp:123-124). A null pointer is `none`. -/
structure ExtMgr (α : Type) where
  slots : List (Option α) := []
  free : List Nat := []
deriving DecidableEq

/-- `allocate` (source/ExternalManager.hpp:44-54). `slots[index] = ...` with an index outside the
vector is undefined, modelled by `none`. The handle is the 32-bit truncation of the new index. -/
def ExtMgr.allocate {α : Type} (m : ExtMgr α) (x : α) : Option (ExtMgr α × Nat) :=
  match m.free with
  | i :: rest =>
    if i < m.slots.length then some ({ slots := m.slots.set i (some x), free := rest }, i) else none
  | [] => some ({ m with slots := m.slots ++ [some x] }, m.slots.length % 4294967296)

/-- `get` (source/ExternalManager.hpp:57-70). The assertions are compiled out in release builds;
an index out of range or a null pointer is then undefined behaviour, modelled by `none`. -/
def ExtMgr.get {α : Type} (m : ExtMgr α) (h : Nat) : Option α :=
  match m.slots[h]? with
  | some p => p
  | none => none

/-- Assignment through the reference returned by the non-const `get`
(source/ExternalManager.hpp:65-70). -/
def ExtMgr.put {α : Type} (m : ExtMgr α) (h : Nat) (x : α) : Option (ExtMgr α) :=
  match m.slots[h]? with
  | some (some _) => some { m with slots := m.slots.set h (some x) }
  | _ => none

/-- `erase` (source/ExternalManager.hpp:73-79): out of range is undefined; erasing an already
erased handle violates the assertion and would push the handle twice, also `none`. -/
def ExtMgr.erase {α : Type} (m : ExtMgr α) (h : Nat) : Option (ExtMgr α) :=
  match m.slots[h]? with
  | some (some _) => some { slots := m.slots.set h none, free := m.free ++ [h] }
  | _ => none

/-- `valid` (source/ExternalManager.hpp:82-84). -/
def ExtMgr.valid {α : Type} (m : ExtMgr α) (h : Nat) : Bool :=
  match m.slots[h]? with
  | some (some _) => true
  | _ => false

/-- `copyFrom`, used by the copy constructor, copy assignment and `clone`
(source/ExternalManager.hpp:30-39, 87-89, 99-121). Every stored object is copy-constructed. -/
def ExtMgr.copyFrom {α : Type} (other : ExtMgr α) : ExtMgr α :=
  { slots := other.slots.map fun
      | some x => some x
      | none => none
    free := other.free }

/-- Calls on a pair of managers, enough to state independence of copies. The Boolean selects the
manager; `copy b` assigns the other manager to manager `b`
(source/ExternalManager.hpp:33-39). -/
inductive ExtOp (α : Type) where
  | alloc (b : Bool) (x : α)
  | get (b : Bool) (h : Nat)
  | put (b : Bool) (h : Nat) (x : α)
  | erase (b : Bool) (h : Nat)
  | valid (b : Bool) (h : Nat)
  | copy (b : Bool)

/-- What a call returns (source/ExternalManager.hpp:44-84). -/
inductive ExtOut (α : Type) where
  | handle (h : Nat)
  | value (x : α)
  | flag (b : Bool)
  | unit
deriving DecidableEq

/-- Two managers (instances of source/ExternalManager.hpp:21-125); a modelling device for stating
that copies are independent. -/
structure ExtPair (α : Type) where
  a : ExtMgr α := {}
  b : ExtMgr α := {}

/-- The manager a call is made on (modelling device, source/ExternalManager.hpp:21-125). -/
def ExtPair.sel {α : Type} (p : ExtPair α) (b : Bool) : ExtMgr α := if b then p.b else p.a

/-- Replace one manager (modelling device, source/ExternalManager.hpp:21-125). -/
def ExtPair.upd {α : Type} (p : ExtPair α) (b : Bool) (m : ExtMgr α) : ExtPair α :=
  if b then { p with b := m } else { p with a := m }

/-- One call (source/ExternalManager.hpp:33-89). -/
def ExtPair.call {α : Type} (p : ExtPair α) : ExtOp α → Option (ExtPair α × ExtOut α)
  | .alloc b x => ((p.sel b).allocate x).map fun r => (p.upd b r.1, .handle r.2)
  | .get b h => ((p.sel b).get h).map fun x => (p, .value x)
  | .put b h x => ((p.sel b).put h x).map fun m => (p.upd b m, .unit)
  | .erase b h => ((p.sel b).erase h).map fun m => (p.upd b m, .unit)
  | .valid b h => some (p, .flag ((p.sel b).valid h))
  | .copy b => some (p.upd b (p.sel (!b)).copyFrom, .unit)

/-- A history of calls (source/ExternalManager.hpp:33-89). -/
def ExtPair.calls {α : Type} (p : ExtPair α) : List (ExtOp α) → Option (ExtPair α × List (ExtOut α))
  | [] => some (p, [])
  | op :: ops =>
    match p.call op with
    | none => none
    | some (p', o) =>
      match p'.calls ops with
      | none => none
      | some (p'', os) => some (p'', o :: os)

end Verif.Model

import Verif.Model.Interval
import Verif.Model.External

/-!
Driver maps and the value tracker: `source/DriverMap.hpp`, `source/ValueTracker.hpp` and
`source/ValueTracker.cpp`. Calls are modelled one at a time; the locks of `addDrivers`
(source/ValueTracker.cpp:48-70) make each call on a slot atomic.
-/
namespace Verif.Model

/-- `DriverInfo` (source/DriverMap.hpp:21-34). A node pointer is a node index, `none` for null;
`lsp` identifies the AST expression. -/
structure DriverInfo where
  node : Option Nat
  lsp : Nat := 0
deriving DecidableEq, Repr

/-- `unordered_set<DriverInfo>::insert` with equality on the node only
(source/DriverMap.hpp:25-27, 37). The set is modelled by a list; its order is not observable in the
properties. -/
def dlInsert (l : List DriverInfo) (d : DriverInfo) : List DriverInfo :=
  if l.any (fun x => x.node == d.node) then l else l ++ [d]

/-- `existing.insert(list.begin(), list.end())` (source/ValueTracker.cpp:93, 99, 134, 169, 215,
258). -/
def dlInsertAll (l ds : List DriverInfo) : List DriverInfo := ds.foldl dlInsert l

/-- `DriverMap` (source/DriverMap.hpp:46-58): intervals mapped to handles, and the lists. -/
structure DMap where
  ivls : List (Ivl Nat) := []
  lists : ExtMgr (List DriverInfo) := {}

/-- `addDriverList` (source/DriverMap.hpp:70-74): allocation followed by copying in. A fault
stands for the undefined behaviour of the storage (see `ExtMgr`). -/
def DMap.addList (m : DMap) (ds : List DriverInfo) : Except Fault (DMap × Nat) :=
  match m.lists.allocate [] with
  | none => .error .oob
  | some (ls, h) =>
    match ls.put h ds with
    | none => .error .oob
    | some ls' => .ok ({ m with lists := ls' }, h)

/-- `getDriverList` (source/DriverMap.hpp:77-84). -/
def DMap.getList (m : DMap) (h : Nat) : Except Fault (List DriverInfo) :=
  match m.lists.get h with
  | none => .error .oob
  | some l => .ok l

/-- Update through the reference returned by the non-const `getDriverList`
(source/DriverMap.hpp:77-79). -/
def DMap.putList (m : DMap) (h : Nat) (l : List DriverInfo) : Except Fault DMap :=
  match m.lists.put h l with
  | none => .error .oob
  | some ls => .ok { m with lists := ls }

/-- `insert` (source/DriverMap.hpp:87-90). -/
def DMap.insert (m : DMap) (lo hi : Int) (h : Nat) : DMap :=
  { m with ivls := imInsert lo hi h m.ivls }

/-- `erase` of an iterator position (source/DriverMap.hpp:125-128). -/
def DMap.eraseAt (m : DMap) (e : Ivl Nat) : DMap := { m with ivls := m.ivls.erase e }

/-- `erase` of a handle, guarded by `validHandle` (source/DriverMap.hpp:131-136,
source/ValueTracker.cpp:158-160). -/
def DMap.freeIfValid (m : DMap) (h : Nat) : Except Fault DMap :=
  if m.lists.valid h then
    match m.lists.erase h with
    | none => .error .oob
    | some ls => .ok { m with lists := ls }
  else .ok m

/-- How one iteration of the loop of `addDrivers` (source/ValueTracker.cpp:83-275) ends: by `return`, by
`continue` with the remaining bounds after a fresh `find`, or by `++it`. -/
inductive AddStep where
  | done (m : DMap)
  | again (m : DMap) (lo : Int)
  | skip

/-- `x - 1` at source/ValueTracker.cpp:115, 176, 200, 249: the operand is always larger than
another 32-bit value, so it does not underflow. -/
def decr32 (x : Int) : Int := x - 1

/-- The merging branch for an existing entry inside the new bounds
(source/ValueTracker.cpp:166-189). -/
def stepMergeContained (m : DMap) (lo hi : Int) (ds : List DriverInfo) (e : Ivl Nat) :
    Except Fault AddStep := do
  let l ← m.getList e.val
  let m1 ← m.putList e.val (dlInsertAll l ds)
  let m2 ← if e.lo > lo then do
      let (m', h) ← m1.addList ds
      pure (m'.insert lo (decr32 e.lo) h)
    else pure m1
  let lo' ← incr32 e.hi
  if lo' > hi then return .done m2
  return .again m2 lo'

/-- The branch for an existing entry that contains the new bounds
(source/ValueTracker.cpp:110-145). -/
def stepSplit (m : DMap) (lo hi : Int) (ds : List DriverInfo) (merge : Bool) (e : Ivl Nat) :
    Except Fault AddStep := do
  let m1 := m.eraseAt e
  let m2 := if e.lo < lo then m1.insert e.lo (decr32 lo) e.val else m1
  let m3 ← if e.hi > hi then do
      let n ← incr32 hi
      pure (m2.insert n e.hi e.val)
    else pure m2
  if merge then
    let l ← m3.getList e.val
    let (m4, h) ← m3.addList (dlInsertAll l ds)
    return .done (m4.insert lo hi h)
  else
    let (m4, h) ← m3.addList ds
    return .done (m4.insert lo hi h)

/-- The branch for an existing entry that overlaps the lower end of the new bounds
(source/ValueTracker.cpp:195-230). The assertion at line 199 holds on every path to it. -/
def stepLeft (m : DMap) (lo hi : Int) (ds : List DriverInfo) (merge : Bool) (e : Ivl Nat) :
    Except Fault AddStep := do
  let m1 := m.eraseAt e
  let m2 := m1.insert e.lo (decr32 lo) e.val
  let m4 ← if !merge then do
      let (m3, h) ← m2.addList ds
      pure (m3.insert lo e.hi h)
    else do
      let l ← m2.getList e.val
      let (m3, h) ← m2.addList (dlInsertAll l ds)
      pure (m3.insert lo e.hi h)
  let lo' ← incr32 e.hi
  if lo' > hi then return .done m4
  return .again m4 lo'

/-- The branch for an existing entry that overlaps the upper end of the new bounds
(source/ValueTracker.cpp:235-271). -/
def stepRight (m : DMap) (lo hi : Int) (ds : List DriverInfo) (merge : Bool) (e : Ivl Nat) :
    Except Fault AddStep := do
  let m1 := m.eraseAt e
  let (m2, leftHandle) ← m1.addList ds
  let m5 ← if !merge then pure (m2.insert lo hi leftHandle)
    else do
      let m3 := m2.insert lo (decr32 e.lo) leftHandle
      let l ← m3.getList e.val
      let (m4, h) ← m3.addList (dlInsertAll l ds)
      pure (m4.insert e.lo hi h)
  let n ← incr32 hi
  return .done (m5.insert n e.hi e.val)

/-- One iteration of the loop (source/ValueTracker.cpp:83-275) on the entry `e` found, with the
bounds `[lo, hi]` in ascending order. -/
def addStep (m : DMap) (lo hi : Int) (ds : List DriverInfo) (merge : Bool) (e : Ivl Nat) :
    Except Fault AddStep := do
  if e.lo = lo ∧ e.hi = hi then
    if merge then
      let l ← m.getList e.val
      return .done (← m.putList e.val (dlInsertAll l ds))
    else
      let _ ← m.getList e.val
      return .done (← m.putList e.val (dlInsertAll [] ds))
  else if e.lo ≤ lo ∧ hi ≤ e.hi then stepSplit m lo hi ds merge e
  else if lo ≤ e.lo ∧ e.hi ≤ hi then
    if !merge then
      let m1 ← (m.eraseAt e).freeIfValid e.val
      return .again m1 lo
    else stepMergeContained m lo hi ds e
  else if e.lo ≤ lo ∧ e.hi ≥ lo then stepLeft m lo hi ds merge e
  else if e.lo ≤ hi ∧ e.hi ≥ hi then stepRight m lo hi ds merge e
  else return .skip

/-- The loop over `driverMap.find(bounds)` and the insertion after it
(source/ValueTracker.cpp:83-279). `it` holds the overlapping entries still to visit; a `continue`
repeats the `find`. `fuel` bounds the number of iterations; running out is the fault `budget`. -/
def addLoop (ds : List DriverInfo) (merge : Bool) (hi : Int) :
    Nat → DMap → Int → List (Ivl Nat) → Except Fault DMap
  | 0, _, _, _ => .error .budget
  | _ + 1, m, lo, [] => do
    let (m', h) ← m.addList ds
    return m'.insert lo hi h
  | fuel + 1, m, lo, e :: es => do
    match ← addStep m lo hi ds merge e with
    | .done m' => return m'
    | .again m' lo' => addLoop ds merge hi fuel m' lo' (imFind m'.ivls lo' hi)
    | .skip => addLoop ds merge hi fuel m lo es

/-- `addDrivers` on the driver map of one symbol (source/ValueTracker.cpp:73-284). The bounds are
first put in ascending order (line 76). -/
def DMap.addDrivers (m : DMap) (b : BitRange) (ds : List DriverInfo) (merge : Bool) :
    Except Fault DMap :=
  addLoop ds merge b.upper (m.ivls.length + 2) m b.lower (imFind m.ivls b.lower b.upper)

/-- `ConstantRange::contains` (used at source/ValueTracker.cpp:110, 152, 298, 306). -/
def BitRange.containsRange (a b : BitRange) : Bool := a.lower ≤ b.lower && b.upper ≤ a.upper

/-- The loop of `getDrivers` (source/ValueTracker.cpp:294-312). -/
def getLoop (m : DMap) (b : BitRange) : List DriverInfo → List (Ivl Nat) →
    Except Fault (List DriverInfo)
  | acc, [] => .ok acc
  | acc, e :: es => do
    if BitRange.containsRange ⟨e.lo, e.hi⟩ b then
      let l ← m.getList e.val
      getLoop m b (dlInsertAll acc l) es
    else if BitRange.containsRange b ⟨e.lo, e.hi⟩ then
      let l ← m.getList e.val
      getLoop m b (dlInsertAll acc l) es
    else getLoop m b acc es

/-- `getDrivers` on the driver map of one symbol (source/ValueTracker.cpp:293-312). -/
def DMap.getDrivers (m : DMap) (b : BitRange) : Except Fault (List DriverInfo) :=
  getLoop m b [] (imFind m.ivls b.lower b.upper)

/-- `forEachDriverInterval` on the driver map of one symbol (source/ValueTracker.hpp:118-123): the
bounds and driver list of each overlapping interval, in order. -/
def DMap.intervals (m : DMap) (b : BitRange) : Except Fault (List (BitRange × List DriverInfo)) :=
  (imFind m.ivls b.lower b.upper).mapM fun e => do
    let l ← m.getList e.val
    return (⟨e.lo, e.hi⟩, l)

/-- A call recording drivers for one symbol (arguments of source/ValueTracker.cpp:13-16). -/
structure Rec where
  bounds : BitRange
  drivers : List DriverInfo
  merge : Bool := false

/-- A history of recordings on one symbol (source/ValueTracker.cpp:13-284). -/
def DMap.run (m : DMap) : List Rec → Except Fault DMap
  | [] => .ok m
  | r :: rs => do
    let m' ← m.addDrivers r.bounds r.drivers r.merge
    m'.run rs

/-- The symbol table of `ValueTracker` (source/ValueTracker.hpp:60-67): `valueToSlot` as a list of
(symbol, slot) pairs and `nextSlot`. `slotToValue` is its inverse. -/
structure Tracker where
  slots : List (Nat × Nat) := []
  next : Nat := 0

/-- `getSlot` (source/ValueTracker.hpp:87-92). -/
def Tracker.getSlot (t : Tracker) (sym : Nat) : Option Nat :=
  (t.slots.find? fun p => p.1 == sym).map (·.2)

/-- Slot lookup or allocation (source/ValueTracker.cpp:18-38), for calls made one at a time. -/
def Tracker.slotFor (t : Tracker) (sym : Nat) : Tracker × Nat :=
  match t.getSlot sym with
  | some i => (t, i)
  | none => ({ slots := t.slots ++ [(sym, t.next)], next := t.next + 1 }, t.next)

/-- `drivers.resize(index + 1)` when too short (source/ValueTracker.cpp:49-54). -/
def growTo (drv : List DMap) (i : Nat) : List DMap :=
  drv ++ List.replicate (i + 1 - drv.length) ({ } : DMap)

/-- `addDrivers` (source/ValueTracker.cpp:13-284) on a vector of driver maps. -/
def Tracker.addDrivers (t : Tracker) (drv : List DMap) (sym : Nat) (r : Rec) :
    Except Fault (Tracker × List DMap) := do
  let (t', i) := t.slotFor sym
  let drv' := growTo drv i
  match drv'[i]? with
  | none => .error .oob
  | some m =>
    let m' ← m.addDrivers r.bounds r.drivers r.merge
    return (t', drv'.set i m')

/-- `forEachDriverInterval` (source/ValueTracker.hpp:109-125). -/
def Tracker.intervals (t : Tracker) (drv : List DMap) (sym : Nat) (b : BitRange) :
    Except Fault (List (BitRange × List DriverInfo)) :=
  match t.getSlot sym with
  | none => .ok []
  | some i =>
    match drv[i]? with
    | none => .ok []
    | some m => m.intervals b

/-- A history of recordings on several symbols (source/ValueTracker.cpp:13-284). -/
def Tracker.run (t : Tracker) (drv : List DMap) : List (Nat × Rec) →
    Except Fault (Tracker × List DMap)
  | [] => .ok (t, drv)
  | (sym, r) :: rs => do
    let (t', drv') ← t.addDrivers drv sym r
    t'.run drv' rs

end Verif.Model

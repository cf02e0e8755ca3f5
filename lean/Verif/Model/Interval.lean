import Verif.Model.NetGraph
import Verif.Model.Wildcard

/-!
Interval maps and their difference: `source/IntervalMapUtils.hpp`.

slang's `IntervalMap` is an external dependency (a B+ tree). It is modelled as the list of its
entries in iteration order, which is ascending order of left end. The code's own calls on it
(`insert`, `find`, `erase`, `begin`/`end`, `unionWith`) are the only ones modelled.
-/
namespace Verif.Model

/-- One entry of slang's `IntervalMap<int32_t, T>` (used at source/DriverMap.hpp:50-55 and
source/IntervalMapUtils.hpp:13-16): inclusive bounds and a value. -/
structure Ivl (α : Type) where
  lo : Int
  hi : Int
  val : α
deriving DecidableEq, Repr

/-- `IntervalMap::insert` (called at source/DriverMap.hpp:89): ordered insertion by left end. An
entry equal on the left end goes after the existing ones. -/
def imInsert {α : Type} (lo hi : Int) (v : α) : List (Ivl α) → List (Ivl α)
  | [] => [⟨lo, hi, v⟩]
  | e :: es => if lo < e.lo then ⟨lo, hi, v⟩ :: e :: es else e :: imInsert lo hi v es

/-- Whether an entry overlaps the queried bounds (`IntervalMap::find`, called at
source/DriverMap.hpp:113-116). -/
def Ivl.hits {α : Type} (e : Ivl α) (lo hi : Int) : Bool := e.lo ≤ hi && lo ≤ e.hi

/-- `IntervalMap::find` (called at source/DriverMap.hpp:113-116): the overlapping entries in
iteration order. -/
def imFind {α : Type} (m : List (Ivl α)) (lo hi : Int) : List (Ivl α) :=
  m.filter fun e => e.hits lo hi

/-- Largest 32-bit signed value; `TKey` is `int32_t` (source/DriverMap.hpp:50). -/
def int32Max : Int := 2147483647

/-- `x + 1` on `int32_t`: overflow is undefined behaviour, reported as a fault
(source/IntervalMapUtils.hpp:41, source/ValueTracker.cpp:122, 182, 222, 265). -/
def incr32 (x : Int) : Except Fault Int :=
  if x < int32Max then .ok (x + 1) else .error .oob

/-- The loop of `subtractSingle` (source/IntervalMapUtils.hpp:21-52) from the given iterator
position and value of `current`. `unionWith` is modelled by ordered insertion: the intervals
passed to it never overlap earlier ones when `first` holds disjoint entries, so no merging of
different entries takes place (slang may fuse touching entries; that does not change which points
are covered). -/
def subtractLoop {α β : Type} (result : List (Ivl α)) (stop : Int) (v : α) :
    Int → List (Ivl β) → Except Fault (List (Ivl α))
  | current, [] => .ok (if current ≤ stop then imInsert current stop v result else result)
  | current, r :: rs =>
    if r.hi < current then subtractLoop result stop v current rs
    else if r.lo > stop then subtractLoop result stop v current rs
    else
      let result' := if r.lo > current then imInsert current (min stop (r.lo - 1)) v result
        else result
      match incr32 r.hi with
      | .error e => .error e
      | .ok nxt =>
        let current' := max current nxt
        if current' ≥ stop then
          .ok (if current' ≤ stop then imInsert current' stop v result' else result')
        else subtractLoop result' stop v current' rs

/-- `subtractSingle` (source/IntervalMapUtils.hpp:11-53). -/
def subtractSingle {α β : Type} (result : List (Ivl α)) (e : Ivl α) (second : List (Ivl β)) :
    Except Fault (List (Ivl α)) :=
  subtractLoop result e.hi e.val e.lo second

/-- The loop of `difference` (source/IntervalMapUtils.hpp:69-71). -/
def differenceLoop {α β : Type} (second : List (Ivl β)) :
    List (Ivl α) → List (Ivl α) → Except Fault (List (Ivl α))
  | result, [] => .ok result
  | result, e :: es =>
    match subtractSingle result e second with
    | .error f => .error f
    | .ok result' => differenceLoop second result' es

/-- `difference` (source/IntervalMapUtils.hpp:56-74). In the code both maps have the same value
type; the model does not need that. -/
def imDifference {α β : Type} (first : List (Ivl α)) (second : List (Ivl β)) :
    Except Fault (List (Ivl α)) :=
  if second.isEmpty then .ok first else differenceLoop second [] first

end Verif.Model

import Verif.Model.NetGraph
import Verif.Model.Wildcard
import Verif.Model.Interval

/-!
Cut points and the ranges they split: `source/CutRegistry.hpp`, the splitting of driver ranges in
`source/PortConnectionHandler.cpp`, and the node table `source/VariableTracker.hpp`.
-/
namespace Verif.Model

/-- `std::unique` followed by `erase` (source/CutRegistry.hpp:32,
source/PortConnectionHandler.cpp:337, source/BitSliceList.cpp:46): drop every element equal to the
one before it. -/
def uniqueAdj : List Nat → List Nat
  | [] => []
  | [a] => [a]
  | a :: b :: l => if a = b then uniqueAdj (b :: l) else a :: uniqueAdj (b :: l)

/-- Insertion into an ascending list, for `sortAsc` (source/CutRegistry.hpp:31). -/
def insertAsc (a : Nat) : List Nat → List Nat
  | [] => [a]
  | b :: l => if a ≤ b then a :: b :: l else b :: insertAsc a l

/-- `std::sort` (source/CutRegistry.hpp:31, source/PortConnectionHandler.cpp:336,
source/BitSliceList.cpp:45). The order of equal numbers does not matter, so any sorting will do; this
one inserts. -/
def sortAsc : List Nat → List Nat
  | [] => []
  | a :: l => insertAsc a (sortAsc l)

/-- `std::sort` then `std::unique`/`erase` (source/CutRegistry.hpp:31-32,
source/PortConnectionHandler.cpp:336-337, source/BitSliceList.cpp:45-46). -/
def sortUnique (l : List Nat) : List Nat := uniqueAdj (sortAsc l)

/-- The registry (source/CutRegistry.hpp:43): symbols, identified by numbers, to cut lists. -/
abbrev CutReg := Nat → Option (List Nat)

/-- `entries[&symbol]` (source/CutRegistry.hpp:25): the existing set, or a new empty one. -/
def CutReg.at (r : CutReg) (sym : Nat) : List Nat :=
  match r sym with
  | some s => s
  | none => []

/-- `addCuts` (source/CutRegistry.hpp:20-33). `width` is the symbol's selectable width. -/
def CutReg.addCuts (r : CutReg) (width : Nat) (sym : Nat) (cuts : List Nat) : CutReg :=
  if cuts.isEmpty then r
  else fun s => if s = sym then
      some (sortUnique (r.at sym ++ cuts.filter fun c => 0 < c && c < width))
    else r s

/-- `cutsFor` (source/CutRegistry.hpp:36-40). -/
def CutReg.cutsFor (r : CutReg) (sym : Nat) : Option (List Nat) := r sym

/-- A history of registrations (source/CutRegistry.hpp:20-33). -/
def CutReg.run (width : Nat → Nat) (r : CutReg) : List (Nat × List Nat) → CutReg
  | [] => r
  | (sym, cuts) :: rest => CutReg.run width (r.addCuts (width sym) sym cuts) rest

/-- Position returned by `std::upper_bound` (source/PortConnectionHandler.cpp:96, 141,
source/BitSliceList.cpp:275) on an ascending list. -/
def upperBound (l : List Nat) (x : Nat) : Nat := (l.takeWhile fun c => decide (c ≤ x)).length

/-- Position returned by `std::lower_bound` (source/PortConnectionHandler.cpp:97, 142,
source/BitSliceList.cpp:276) on an ascending list. -/
def lowerBound (l : List Nat) (x : Nat) : Nat := (l.takeWhile fun c => decide (c < x)).length

/-- The elements from `first` up to `last` (source/PortConnectionHandler.cpp:98, 144,
source/BitSliceList.cpp:289). If `first` lay beyond `last` the loop would run off the end: a
fault. -/
def hintsInside (hints : List Nat) (lo hi : Nat) : Except Fault (List Nat) :=
  let first := upperBound hints lo
  let last := lowerBound hints hi
  if first ≤ last then .ok ((hints.take last).drop first) else .error .oob

/-- The splitting loop (source/PortConnectionHandler.cpp:143-150): a segment up to each cut, and
the rest. -/
def splitLoop (hi : Nat) : Nat → List Nat → List BitRange
  | prev, [] => [⟨prev, (hi : Int) - 1⟩]
  | prev, c :: cs => ⟨prev, (c : Int) - 1⟩ :: splitLoop hi c cs

/-- The segments of one driver (source/PortConnectionHandler.cpp:130-151), for driver bounds
`first .. second`. Bounds are not negative, so the casts to and from `uint64_t` are exact. -/
def portSegments (hints : Option (List Nat)) (first second : Nat) :
    Except Fault (List BitRange) :=
  match hints with
  | none => .ok [⟨first, second⟩]
  | some hs =>
    match hintsInside hs first (second + 1) with
    | .error e => .error e
    | .ok inside => .ok (splitLoop (second + 1) first inside)

/-- `VariableTracker` (source/VariableTracker.hpp:17, 85): per symbol an interval map to nodes. -/
abbrev VarTab := Nat → List (Ivl Nat)

/-- `insert` (source/VariableTracker.hpp:48-54). -/
def VarTab.insert (t : VarTab) (sym : Nat) (b : BitRange) (node : Nat) : VarTab :=
  fun s => if s = sym then imInsert b.lower b.upper node (t sym) else t s

/-- `lookup` of a range (source/VariableTracker.hpp:57-70): the first overlapping entry whose
bounds equal the given ones. The comparison is on `left` and `right`, so bounds given in descending
order equal no stored entry of more than one bit. -/
def VarTab.lookup (t : VarTab) (sym : Nat) (b : BitRange) : Option Nat :=
  ((imFind (t sym) b.lower b.upper).find? fun e => decide ((⟨e.lo, e.hi⟩ : BitRange) = b)).map
    Ivl.val

/-- `lookup` of a symbol (source/VariableTracker.hpp:73-82). -/
def VarTab.lookupAll (t : VarTab) (sym : Nat) : List Nat := (t sym).map Ivl.val

/-- A history of insertions (source/VariableTracker.hpp:48-54). -/
def VarTab.run (t : VarTab) : List (Nat × BitRange × Nat) → VarTab
  | [] => t
  | (sym, b, n) :: rest => VarTab.run (t.insert sym b n) rest

end Verif.Model

/-!
Statistics of the task times: `BuildPipeline::recordTaskStats` (source/BuildPipeline.cpp:111-132).
-/
namespace Verif.Model

/-- The members set by `recordTaskStats` (source/BuildPipeline.cpp:122-131). Times are whole numbers of
clock ticks and the arithmetic is exact, where the code rounds to doubles. The mean is a numerator and a
denominator, the median is kept doubled. -/
structure TaskStats where
  min : Nat
  max : Nat
  total : Nat
  meanDen : Nat
  median2 : Nat
deriving DecidableEq

/-- `recordTaskStats` (source/BuildPipeline.cpp:111-132); `none` leaves the profile unchanged (113-115).
The accesses `front`, `back`, `[mid - 1]` and `[mid]` read past the end only if the list is empty; they
are made total with 0. The sum starts from 0 and adds the sorted times in order. -/
def taskStats (times : List Nat) : Option TaskStats :=
  if times = [] then none
  else
    let t := times.mergeSort (fun a b => decide (a ≤ b))
    let mid := t.length / 2
    some {
      min := t.headD 0
      max := t.getLastD 0
      total := t.foldl (· + ·) 0
      meanDen := t.length
      median2 := if t.length % 2 = 0 then t.getD (mid - 1) 0 + t.getD mid 0 else 2 * t.getD mid 0 }

end Verif.Model

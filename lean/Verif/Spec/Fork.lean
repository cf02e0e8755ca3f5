import Verif.Spec.Dataflow

/-! How the branches of a parallel block run: their writes happen in any interleaving. -/
namespace Verif.Spec
open Verif.Model

/-- The list is an interleaving of the lists. -/
inductive Shuffle {α : Type} : List (List α) → List α → Prop
  | done {ls : List (List α)} : (∀ l ∈ ls, l = []) → Shuffle ls []
  | step {pre post : List (List α)} {x : α} {l w : List α} : Shuffle (pre ++ l :: post) w →
    Shuffle (pre ++ (x :: l) :: post) (x :: w)

/-- The branches make these writes, one list per branch. -/
inductive RunsAll : List Stmt → List (List Wr) → Prop
  | nil : RunsAll [] []
  | cons {b : Stmt} {bs : List Stmt} {v : List Wr} {vs : List (List Wr)} : Runs b v → RunsAll bs vs →
    RunsAll (b :: bs) (v :: vs)

/-- The writes made by one execution of a statement followed by a parallel block. -/
def ForkRuns (st : Stmt) (bs : List Stmt) (tr : List Wr) : Prop :=
  ∃ t vs w, Runs st t ∧ RunsAll bs vs ∧ Shuffle vs w ∧ tr = t ++ w

/-- The non-blocking writes of the branches in textual order, as far as they are collected. -/
def forkNba (r : Bool) (bs : List Stmt) : List Wr := bs.flatMap (nbaWrites r)

end Verif.Spec

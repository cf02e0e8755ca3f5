import Verif.Spec.Dataflow

/-! How loops run. -/
namespace Verif.Spec
open Verif.Model

/-- The writes made when the statements run one after the other. -/
inductive RunsInOrder : List Stmt → List Wr → Prop
  | nil : RunsInOrder [] []
  | cons {s : Stmt} {ss : List Stmt} {u v : List Wr} : Runs s u → RunsInOrder ss v → RunsInOrder (s :: ss) (u ++ v)

/-- The writes made when the body of a loop runs any number of times. -/
inductive Repeats (body : Stmt) : List Wr → Prop
  | none : Repeats body []
  | again {u v : List Wr} : Runs body u → Repeats body v → Repeats body (u ++ v)

/-- The writes made by `pre`, a list of iterations, and `post`. -/
def LoopRuns (pre : Stmt) (its : List Stmt) (post : Stmt) (tr : List Wr) : Prop :=
  ∃ t l v, Runs pre t ∧ RunsInOrder its l ∧ Runs post v ∧ tr = t ++ (l ++ v)

/-- The writes made by `pre`, any number of runs of `body`, and `post`. -/
def OpenRuns (pre body post : Stmt) (tr : List Wr) : Prop :=
  ∃ t l v, Runs pre t ∧ Repeats body l ∧ Runs post v ∧ tr = t ++ (l ++ v)

end Verif.Spec

import Verif.Model.Elab
import Verif.Spec.Dataflow

/-! Blocks without their `force` statements. -/
namespace Verif.Spec
open Verif.Model

/-- The statement with every `force` taken out. -/
def unforced : SStmt → SStmt
  | .assign b a => if a.force then .skip else .assign b a
  | .cond k loc es t => .cond k loc es (unforced t)
  | .seq s t => .seq (unforced s) (unforced t)
  | .choose f s t => .choose f (unforced s) (unforced t)
  | st => st

/-- Two statements make the same writes: on the same paths, in the same places of the text. -/
structure SameWrites (u v : Stmt) : Prop where
  live : Spec.live u = Spec.live v
  all : allWrites u = allWrites v
  runs : ∀ tr, Runs u tr ↔ Runs v tr
  nba : ∀ r, nbaWrites r u = nbaWrites r v

end Verif.Spec

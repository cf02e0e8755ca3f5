import Verif.Spec.Source

/-! Texts with ordinary assignments only. -/
namespace Verif.Spec
open Verif.Model

/-- All assignments are `Proper` or in a `force` statement, and no part of the text is unreachable. -/
def OrdText (S : SynEnv) : SStmt → Prop
  | .assign _ a => a.force = true ∨ Proper S a
  | .cond _ _ _ t => OrdText S t
  | .seq s t | .choose _ s t => OrdText S s ∧ OrdText S t
  | .dead => False
  | .skip | .eval _ => True

/-- Every bit is written last by the same assignment in both lists, blocking or not. -/
def SameLast (ws ws' : List Wr) : Prop := ∀ b x p l, LastAt b ws x p l ↔ LastAt b ws' x p l

end Verif.Spec

import Verif.Model.Dataflow

/-! Blocks without their automatic variables. -/
namespace Verif.Spec
open Verif.Model

/-- The uses of other variables. -/
def lasting (rs : List Ref) : List Ref := rs.filter fun r => !r.auto

/-- A source of a right-hand side without automatic variables; one that is such a variable becomes padding. -/
def lastingSrc : RSrc → RSrc
  | .lsp r => if r.auto then .padding else .lsp r
  | .opaque rs => .opaque (lasting rs)
  | x => x

/-- An assignment that mentions no automatic variable, otherwise as before. -/
def lastingAsg : Asg → Asg
  | .legacy notes => .legacy (notes.filter fun x => !x.ref.auto)
  | .aligned segs => .aligned (segs.map fun g => { g with lhs := lasting g.lhs, rhs := g.rhs.map lastingSrc })

/-- A block that mentions no automatic variable, otherwise as before: all assignments and branches are kept. -/
def lastingStmt : Stmt → Stmt
  | .reads rs => .reads (lasting rs)
  | .assign loc b a => .assign loc b (lastingAsg a)
  | .seq s t => .seq (lastingStmt s) (lastingStmt t)
  | .choose f s t => .choose f (lastingStmt s) (lastingStmt t)
  | s => s

/-- No part of an assignment that is resolved bit by bit is an automatic variable by itself. -/
def AutoInside : Stmt → Prop
  | .assign _ _ (.aligned segs) =>
    ∀ g ∈ segs, (∀ r ∈ g.lhs, r.auto = false) ∧ ∀ r, RSrc.lsp r ∈ g.rhs → r.auto = false
  | .seq s t | .choose _ s t => AutoInside s ∧ AutoInside t
  | _ => True

end Verif.Spec

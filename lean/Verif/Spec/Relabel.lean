import Verif.Spec.Cycles

/-!
Changing the places in the text (file, line and column) of the assignments, conditionals and cases of
a design.
-/
namespace Verif.Spec
open Verif.Model

/-- The fields of a node with the place of an assignment, conditional or case changed. -/
def moveData (f : TextLoc → TextLoc) : NodeData → NodeData
  | .assignment loc => .assignment (f loc)
  | .conditional loc => .conditional (f loc)
  | .case loc => .case (f loc)
  | d => d

/-- A netlist with the places changed: nodes, edges, IDs and all annotations are the same. -/
def moveNet (f : TextLoc → TextLoc) (net : NetGraph) : NetGraph :=
  { net with data := fun n => moveData f (net.data n) }

/-- A segment with its place changed. -/
def moveSeg (f : TextLoc → TextLoc) (g : DSeg) : DSeg := { g with loc := f g.loc }

/-- An assignment with the places of its segments changed. -/
def moveAsg (f : TextLoc → TextLoc) : Asg → Asg
  | .legacy notes => .legacy notes
  | .aligned segs => .aligned (segs.map (moveSeg f))

/-- A statement with the places changed. -/
def moveStmt (f : TextLoc → TextLoc) : Stmt → Stmt
  | .skip => .skip
  | .reads rs => .reads rs
  | .assign loc b a => .assign (f loc) b (moveAsg f a)
  | .branch k loc => .branch k (f loc)
  | .dead => .dead
  | .seq s t => .seq (moveStmt f s) (moveStmt f t)
  | .choose i s t => .choose i (moveStmt f s) (moveStmt f t)

/-- A block with the places changed. -/
def moveBlock (f : TextLoc → TextLoc) : Deferred → Deferred
  | .procedural k body st => .procedural k body (moveStmt f st)
  | .continuous loc a => .continuous (f loc) (moveAsg f a)

mutual
/-- A member of a scope with the places changed. -/
def moveMember (f : TextLoc → TextLoc) : Member → Member
  | .block b => .block (moveBlock f b)
  | .group u ms => .group u (moveAll f ms)
  | .inst u d p ms ks => .inst u d p (moveAll f ms) ks
  | .port p => .port p
  | .variable sym i ds => .variable sym i ds

/-- A design with the places changed. -/
def moveAll (f : TextLoc → TextLoc) : List Member → List Member
  | [] => []
  | m :: ms => moveMember f m :: moveAll f ms
end

/-- An event with the places changed. -/
def moveEvent (f : TextLoc → TextLoc) : Event → Event
  | .block b => .block (moveBlock f b)
  | e => e

/-- `marked` is the design `top` with a place of its own for every assignment, segment, conditional and
case, the instances of a module counted separately; `f` leads back to the places in the text. -/
structure Marked (boxed : Str → Str → Bool) (propCuts : Bool) (f : TextLoc → TextLoc)
    (marked top : List Member) : Prop where
  same : moveAll f marked = top
  distinct : Distinct (eventsAll boxed propCuts marked)

end Verif.Spec

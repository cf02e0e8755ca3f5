import Verif.Model.Tasks
import Verif.Spec.Schedule

/-! Specification vocabulary for C96 to C98. -/
namespace Verif.Spec
open Verif.Model

/-- All tasks have ended: they did all their operations or a fault stopped them. -/
def TasksDone (p : TaskSt) : Prop := ∀ u, p.cur u = .free ∧ p.jobs u = [] ∧ p.ops u = []

/-- The two nodes between which a task is adding a dependency. -/
def addingAt : TaskPhase → Option (Nat × Nat)
  | .free => none
  | .edge x y => some (x, y)
  | .first d => some (d.src, d.tgt)
  | .second d => some (d.src, d.tgt)

/-- Task `u` is inside `addDependency` for the nodes `x` and `y`. -/
def Adding (p : TaskSt) (u x y : Nat) : Prop := addingAt (p.cur u) = some (x, y)

/-- The small steps a task needs for an operation, at most. -/
def opCost (D : Design) : BAct → Nat
  | .mread r _ _ => 1 + 20 * (D.iface r.sym r.lsp).length
  | .hook _ _ l => 1 + 20 * l.length
  | .extra sym _ l => 1 + 20 * (l.map fun d => (D.iface sym d.lsp).length + 1).sum
  | _ => 21

/-- The small steps for the operations of the first `k` blocks, at most. -/
def opsCost (D : Design) (as : Nat → List BAct) (k : Nat) : Nat :=
  ((List.range k).map fun w => ((as w).map (opCost D)).sum).sum

/-- Both ends of the edges agree: the in-edges of `y` from `x` are the out-edges of `x` to `y`, in the same order. -/
def BothEnds (net : NetGraph) : Prop :=
  ∀ x y, ((net.g.obj y).inE.filter fun e => e.src == x) = (net.g.obj x).outE.filter fun e => e.tgt == y

end Verif.Spec

import Verif.Model.NetGraph
import Verif.Spec.Reach

/-!
Specification vocabulary for netlist queries, in terms of the out-edges of live nodes only.
-/
namespace Verif.Spec
open Verif.Model

/-- A netlist produced by some history of calls on an empty netlist. -/
def Reachable (net : NetGraph) : Prop := ∃ ops, NetGraph.calls {} ops = some net

/-- `a` is joined to `b` by an enabled edge. -/
def Step (net : NetGraph) (a b : Nat) : Prop :=
  a ∈ net.g.nodes ∧ ∃ e ∈ (net.g.obj a).outE, e.tgt = b ∧ (net.attr e.id).disabled = false

/-- An enabled edge that does not enter a register. -/
def CombStep (net : NetGraph) (a b : Nat) : Prop := Step net a b ∧ net.kind b ≠ .state

/-- An enabled edge that does not leave a register. -/
def CombBackStep (net : NetGraph) (a b : Nat) : Prop := Step net a b ∧ net.kind a ≠ .state

/-- Node IDs are distinct on the nodes of the graph. -/
def UniqueIds (net : NetGraph) : Prop :=
  ∀ a ∈ net.g.nodes, ∀ b ∈ net.g.nodes, net.id a = net.id b → a = b

/-- Register `r` is clocked by `s` with edge kind `k`: an enabled edge from `s` to `r` carries the
(non-trivial) edge kind. -/
def ClockedBy (net : NetGraph) (r s : Nat) (k : EdgeKind) : Prop :=
  ∃ e ∈ (net.g.obj s).outE, e.tgt = r ∧ (net.attr e.id).disabled = false ∧
    (net.attr e.id).edgeKind = k ∧ k ≠ .none

/-- Register `r` is entered by an enabled edge from the combinational fan-out of `n`. -/
def Feeds (net : NetGraph) (n r : Nat) : Prop :=
  net.kind r = .state ∧ ∃ m, Reach (CombStep net) n m ∧ Step net m r

end Verif.Spec

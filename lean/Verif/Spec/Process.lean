import Verif.Model.NetGraph

/-! What the threads of a process do to its netlists. -/
namespace Verif.Spec
open Verif.Model

/-- A node is added to netlist `g` in the history. -/
def Adds (h : List (Nat × NetOp)) (g : Nat) : Prop := ∃ d, (g, .addNode d) ∈ h

/-- No builder, of whatever netlist, is constructed between two additions of nodes to `g`. -/
def Undisturbed (h : List (Nat × NetOp)) (g : Nat) : Prop :=
  ∀ pre post k, h = pre ++ (k, .resetIds) :: post → Adds pre g → ¬ Adds post g

/-- One job makes netlist `g`: a build, which constructs a builder first, or a load, which constructs none. -/
structure OneJob (g : Nat) (job : List (Nat × NetOp)) : Prop where
  own : ∀ c ∈ job, c.1 = g
  first : ∀ pre post k, job = pre ++ (k, .resetIds) :: post → pre = []

end Verif.Spec

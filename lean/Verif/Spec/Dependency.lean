import Verif.Spec.Net
import Verif.Model.Dependency

/-! What dependencies mean, bit by bit, without the merging of ranges. -/
namespace Verif.Spec
open Verif.Model

/-- Bit `i` lies in a range. -/
def InRng (b : BitRange) (i : Int) : Prop :=
  (b.left ≤ i ∧ i ≤ b.right) ∨ (b.right ≤ i ∧ i ≤ b.left)

/-- The request asks for bit `i` of the signal with path `p` on an edge: the bit is in the requested
range and, if the driving node holds some bit of that range, the driving node holds it. -/
def Asks (net : NetGraph) (d : Dep) (p : Str) (i : Int) : Prop :=
  (∃ r, d.sym = some r ∧ r.path = p) ∧ InRng d.bounds i ∧
    ∀ nb, (net.data d.src).bounds = some nb → (∃ j, InRng d.bounds j ∧ InRng nb j) → InRng nb i

/-- Some edge from `s` to `t` carries bit `i` of the signal with path `p`. -/
def Carried (net : NetGraph) (s t : Nat) (p : Str) (i : Int) : Prop :=
  ∃ e ∈ (net.g.obj s).outE, e.tgt = t ∧
    (∃ r, (net.attr e.id).symbol = some r ∧ r.path = p) ∧ InRng (net.attr e.id).bounds i

/-- Some edge leads from `s` to `t`. -/
def Joined (net : NetGraph) (s t : Nat) : Prop := ∃ e ∈ (net.g.obj s).outE, e.tgt = t

/-- Every edge from `s` to `t` is without a signal or carries the signal with path `p`. -/
def OnlyFor (net : NetGraph) (s t : Nat) (p : Str) : Prop :=
  ∀ e ∈ (net.g.obj s).outE, e.tgt = t → ∀ r, (net.attr e.id).symbol = some r → r.path = p

/-- Every request from `s` to `t` is for the signal with path `p`. -/
def AskOnly (ds : List Dep) (s t : Nat) (p : Str) : Prop :=
  ∀ d ∈ ds, d.src = s → d.tgt = t → ∃ r, d.sym = some r ∧ r.path = p

/-- Annotations of the edges from `s` to `t`, in order. -/
def annots (net : NetGraph) (s t : Nat) : List EdgeAttr :=
  ((net.g.obj s).outE.filter fun e => e.tgt == t).map fun e => net.attr e.id

end Verif.Spec

import Verif.Spec.Traverse

/-! What C99 says about values that pass through interfaces. -/
namespace Verif.Spec
open Verif.Model

/-- What block `b` leaves in `y` goes to the range `v` of an interface variable: `y` is a modport port and `v`
is behind every use of it, or `y` is the variable itself and the block writes it in that range only. -/
def PutsOn (D : Design) (b : Deferred) (y : Nat) (v : Nat × BitRange) : Prop :=
  (D.kind y = .modportPort ∧ ∀ e, v ∈ D.iface y e) ∨
    (D.kind y = .variable ∧ y = v.1 ∧ ∀ w ∈ allWrites b.stmt, w.sym = y → w.bounds = v.2)

/-- A read of `r` after the paths `Q` takes its value from the range `v` of an interface variable: `r` is a use
of a modport port with `v` behind it, some bit of which its block has not written before, or it reads just the
range `v` of the variable itself, none of which its block has written before. -/
def TakesFrom (D : Design) (r : Ref) (Q : List Wr → Prop) (v : Nat × BitRange) : Prop :=
  (D.kind r.sym = .modportPort ∧ v ∈ D.iface r.sym r.lsp ∧
    ∃ p, InRng r.bounds p ∧ ∀ tr, Q tr → ∀ w ∈ tr, ¬ Hits true r.sym p w) ∨
  (D.kind r.sym ≠ .modportPort ∧ r.sym = v.1 ∧ r.bounds = v.2 ∧
    ∀ p, InRng r.bounds p → ∀ tr, Q tr → ∀ w ∈ tr, ¬ Hits true r.sym p w)

/-- No edge-triggered block writes `x`. -/
def Unclocked (es : List Event) (x : Nat) : Prop :=
  ∀ b ∈ blocksOf es, Clocked b → ∀ w ∈ allWrites b.stmt, w.sym ≠ x

end Verif.Spec

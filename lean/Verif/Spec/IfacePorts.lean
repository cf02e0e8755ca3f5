import Verif.Spec.IfaceFlow

/-! What C101 says about ports that are connected to interface signals. -/
namespace Verif.Spec
open Verif.Model

/-- Variable `x` is met before connection `k`. -/
def Earlier (es : List Event) (x : Nat) (ds : List (Nat × Nat)) (k : Conn) : Prop :=
  ∃ l1 l2 l3, es = l1 ++ .variable x ds :: (l2 ++ .connect k :: l3)

/-- Bit `j` of the input port `p` takes its value from the range `r` of the interface variable `x` with the driven
ranges `ds`, through connection `k`: the connection comes after the variable and ties the bit to a modport port
with the range behind every use of it, or it reads just the range of the variable itself, which no edge-triggered
block writes. -/
def FromIface (E : TravEnv) (es : List Event) (cuts : CutReg) (p : PortDecl) (k : Conn) (j x : Nat)
    (ds : List (Nat × Nat)) (r : BitRange) : Prop :=
  k.output = false ∧ Before es p k ∧ (∃ i, k.formal = .port p.sym i) ∧
    ((Earlier es x ds k ∧ ∃ y q, Simple E.opts E.D k ∧ Ties E.opts E.D k p.sym j y q ∧
        E.D.kind y = .modportPort ∧ ∀ e, (x, r) ∈ E.D.iface y e) ∨
      (E.D.kind x ≠ .modportPort ∧ Unclocked es x ∧ TakesAll E cuts p k j x r))

/-- Ports are ports: neither what a connection is made to nor the port that a signal is inside of is a variable
of an interface. -/
def PortsApart (D : Design) (es : List Event) : Prop :=
  (∀ k s f, .connect k ∈ es → k.formal = .port s f → ∀ ds, .variable s ds ∉ es) ∧
    ∀ y q, D.port y = some q → ∀ ds, .variable q ds ∉ es

end Verif.Spec

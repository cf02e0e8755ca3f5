import Verif.Spec.Meaning

/-!
Designs in which values pass through interfaces, and what their bits stand for.
-/
namespace Verif.Spec
open Verif.Model

/-- The signal is a modport port or an interface variable. -/
def OnIface (E : TravEnv) (es : List Event) (y : Nat) : Prop :=
  E.D.kind y = .modportPort ∨ ∃ ds, .variable y ds ∈ es

/-- Range `d` of interface variable `x` includes bit `q`, and is driven. -/
def DrivenRange (es : List Event) (x q : Nat) (d : Nat × Nat) : Prop :=
  d.1 ≤ q ∧ q ≤ d.1 + d.2 ∧ ∃ ds, .variable x ds ∈ es ∧ d ∈ ds

/-- The bit has its value from outside: as `Source`, and if it is on an interface, no signal that stands for
the same bit is assigned. `via y q` is the bit of an interface variable that bit `q` of a modport port is. -/
def OuterSource (E : TravEnv) (es : List Event) (cuts : CutReg) (via : Nat → Nat → Nat × Nat) (y q : Nat) : Prop :=
  Source E es cuts y q ∧ (OnIface E es y → ∀ y' q', OnIface E es y' → via y' q' = via y q → ¬ Assigned E es cuts y' q')

/-- The designs of `Regular`, with interfaces: what blocks assign has no node of its own unless it is on an
interface; a use of a modport port or of an interface variable that gets bit `i` from outside its block takes it
from a driven range of the variable; a block that writes a bit on an interface puts it on the driven ranges with
that bit; an input port connected to a signal on an interface takes its bits from driven ranges of the variable;
interface variables are not written at clock edges, and output ports are not connected to signals on interfaces. -/
structure RegularVia (E : TravEnv) (es : List Event) (cuts : CutReg) (via : Nat → Nat → Nat × Nat) : Prop where
  comb : ∀ b ∈ blocksOf es, ¬ Clocked b → Comb (allWrites b.stmt) b.stmt
  settled : ∀ b ∈ blocksOf es, ¬ Clocked b → Settled b.stmt
  complete : ∀ b ∈ blocksOf es, ¬ Clocked b → Complete b.stmt
  assigned : ∀ y q, Assigned E es cuts y q → OnIface E es y ∨ (Bare es y ∧ E.D.kind y ≠ .modportPort)
  inlets : ∀ y q x j, Inlet E es y q x j → Bare es x ∧ E.D.kind x ≠ .modportPort
  wired : ∀ p k x j y q, k.output = false → Tied E es p k j y q → LastSupply es x j p → OnIface E es y → ∃ ds d,
    .variable (via y q).1 ds ∈ es ∧ d ∈ ds ∧ d.1 ≤ (via y q).2 ∧ (via y q).2 ≤ d.1 + d.2 ∧
      FromIface E es cuts p k j (via y q).1 ds ⟨d.1, (d.1 : Int) + d.2⟩
  outlets : ∀ p k e, Before es p k → k.output = true → k.actual = some e → BitWise E.opts E.D k p.sym e
  inside : ∀ x j y q, Outlet E es x j y q → ¬ OnIface E es y
  nested : ∃ depth : Nat → Nat, ∀ y q x j, Inlet E es y q x j → depth y < depth x
  reads : ∀ b ∈ blocksOf es, ¬ Clocked b → ∀ who r Q, Use Start b.stmt who r Q → OnIface E es r.sym →
    ∀ i : Nat, InRng r.bounds i → (∀ tr, Q tr → ∀ w ∈ tr, ¬ Hits true r.sym i w) →
    ∃ d, DrivenRange es (via r.sym i).1 (via r.sym i).2 d ∧
      TakesFrom E.D r Q ((via r.sym i).1, ⟨d.1, (d.1 : Int) + d.2⟩)
  writes : ∀ b ∈ blocksOf es, ¬ Clocked b → ∀ y i : Nat, (∃ w ∈ allWrites b.stmt, Hits true y i w) → OnIface E es y →
    ∀ d, DrivenRange es (via y i).1 (via y i).2 d → PutsOn E.D b y ((via y i).1, ⟨d.1, (d.1 : Int) + d.2⟩)
  clocks : ∀ x ds, .variable x ds ∈ es → Unclocked es x

/-- The values of a bit on an interface are those of the bit of the variable. -/
def Shared {V : Type} (E : TravEnv) (es : List Event) (via : Nat → Nat → Nat × Nat) (σ : Vals V) : Prop :=
  ∀ y i : Nat, OnIface E es y → σ y i = σ (via y i).1 (via y i).2

end Verif.Spec

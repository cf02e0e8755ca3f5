import Verif.Spec.Clock

/-!
Designs with interfaces and registers for which the netlist accounts for every influence over time.
-/
namespace Verif.Spec
open Verif.Model

/-- The bit has the value of a register, here, through output ports or over an interface. -/
def HeldVia (E : TravEnv) (es : List Event) (cuts : CutReg) (via : Nat → Nat → Nat × Nat) (y q : Nat) : Prop :=
  Held E es cuts y q ∨
    (OnIface E es y ∧ ∃ b ∈ blocksOf es, ∃ y' q', OnIface E es y' ∧ via y' q' = via y q ∧ Kept b y' q')

/-- The designs of `Timed`, with interfaces: the signals that an edge-triggered block writes are as in `Timed`
unless they are on an interface; a use in an edge-triggered block of a signal on an interface takes its bits from
driven ranges of the variable; and an edge-triggered block that writes a bit on an interface puts it on the driven
ranges with that bit. -/
structure TimedVia (E : TravEnv) (es : List Event) (cuts : CutReg) (via : Nat → Nat → Nat × Nat) : Prop where
  sync : ∀ b ∈ blocksOf es, Clocked b → Sync (allWrites b.stmt) b.stmt
  count : ∀ b ∈ blocksOf es, Clocked b → ∀ who r Q, Use Start b.stmt who r Q → ∀ p, InRng r.bounds p → 0 ≤ p
  kept : ∀ b ∈ blocksOf es, Clocked b → ∀ w ∈ allWrites b.stmt, ¬ OnIface E es w.sym → WellKept E es cuts b w
  outs : ∀ b ∈ blocksOf es, ∀ x j y q, Kept b x j → Arrives E es cuts b x j y q →
    Bare es y ∧ E.D.kind y ≠ .modportPort
  last : ∀ b ∈ blocksOf es, Clocked b → ∀ x p loc, Leaves b.stmt x p loc → ∀ w ∈ allWrites b.stmt,
    Hits false x p w → w.loc = loc ∨ (Inert es w.loc ∧ ∀ b' ∈ blocksOf es, ∀ u,
      Guards b'.stmt u (.assignment w.loc) → Reach (Guards b.stmt) u (.assignment loc))
  reads : ∀ b ∈ blocksOf es, Clocked b → ∀ who r Q, Use Start b.stmt who r Q → OnIface E es r.sym →
    ∀ i : Nat, InRng r.bounds i → (∀ tr, Q tr → ∀ w ∈ tr, ¬ Hits true r.sym i w) →
    ∃ d, DrivenRange es (via r.sym i).1 (via r.sym i).2 d ∧
      TakesFrom E.D r Q ((via r.sym i).1, ⟨d.1, (d.1 : Int) + d.2⟩)
  writes : ∀ b ∈ blocksOf es, ∀ y i : Nat, Kept b y i → OnIface E es y → ∀ d,
    DrivenRange es (via y i).1 (via y i).2 d → PutsOn E.D b y ((via y i).1, ⟨d.1, (d.1 : Int) + d.2⟩)

end Verif.Spec

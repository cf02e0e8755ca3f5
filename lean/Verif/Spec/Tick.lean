import Verif.Spec.Clock

/-!
When the blocks of a design fire: edges of signals that the design may compute itself.
-/
namespace Verif.Spec
open Verif.Model

/-- A place in the text that has a node, or the register of a signal. -/
inductive Point
  | text (d : NodeData)
  | reg (x : Nat)
deriving DecidableEq, Repr

/-- The register of the point, if it is one, is not on an interface. -/
def Off (E : TravEnv) (es : List Event) : Point → Prop
  | .text _ => True
  | .reg x => ¬ OnIface E es x

/-- The event list of the block has a signal with bit `i` of `z`. -/
def Waits (D : Design) (b : Deferred) (z i : Nat) : Prop :=
  ∃ v ∈ blockEvents b, v.signal = some z ∧ i < D.width z

/-- Bit `i` of `z` is read from outside for a place in the text, or a register that belongs to a block
that waits for its edges. -/
inductive Heeds (D : Design) (es : List Event) (z i : Nat) : Point → Prop
  | read {who : NodeData} : Sees es z i who → Heeds D es z i (.text who)
  | edge {b : Deferred} {x j : Nat} : b ∈ blocksOf es → Kept b x j → Waits D b z i → Heeds D es z i (.reg x)

/-- `v` depends on `u`, at once or from one time to the next. `pass` and `load` go between places in the
text and from them into registers; `clock` goes from an assignment to a register whose block waits for what
it assigns; `keep` goes from a register to what reads it or waits for it directly, `enter` through input
ports and `out` through output ports. -/
inductive Moves (E : TravEnv) (es : List Event) (cuts : CutReg) : Point → Point → Prop
  | pass {u v : NodeData} : Passes E es cuts u v → Moves E es cuts (.text u) (.text v)
  | load {b : Deferred} {x j : Nat} {loc : TextLoc} : b ∈ blocksOf es → Kept b x j → Leaves b.stmt x j loc →
    Moves E es cuts (.text (.assignment loc)) (.reg x)
  | clock {b : Deferred} {x j y q z i x' : Nat} {loc : TextLoc} : b ∈ blocksOf es → ¬ Clocked b →
    Leaves b.stmt x j loc → Arrives E es cuts b x j y q → Down E es y q z i → Heeds E.D es z i (.reg x') →
    E.D.kind z ≠ .modportPort → Bare es z → Moves E es cuts (.text (.assignment loc)) (.reg x')
  | keep {b : Deferred} {x j : Nat} {v : Point} : b ∈ blocksOf es → Kept b x j → Heeds E.D es x j v →
    Moves E es cuts (.reg x) v
  | enter {b : Deferred} {x j y q z i : Nat} {v : Point} : b ∈ blocksOf es → Kept b x j → Inlet E es x j y q →
    Down E es y q z i → Heeds E.D es z i v → E.D.kind z ≠ .modportPort → Bare es z → Moves E es cuts (.reg x) v
  | out {b : Deferred} {x j y q z i : Nat} {v : Point} : b ∈ blocksOf es → Kept b x j → Arrives E es cuts b x j y q →
    Down E es y q z i → Heeds E.D es z i v → E.D.kind z ≠ .modportPort → Bare es z → Moves E es cuts (.reg x) v

/-- Node `n` is the one of the place in the text, or a node of the register. -/
def IsAt (D : Design) (net : NetGraph) : Point → Nat → Prop
  | .text d, n => n ∈ net.g.nodes ∧ net.data n = d
  | .reg x, n => n ∈ net.g.nodes ∧ ∃ bd, net.data n = .state (D.ref x).name (D.ref x).path (D.ref x).loc bd

/-- Whether a block fires is determined by the values that the signals it waits for have had until then. -/
def Triggers {V : Type} (D : Design) (es : List Event) (T : (Nat → Vals V) → Nat → Deferred → Bool) : Prop :=
  ∀ b ∈ blocksOf es, ∀ t σ σ', (∀ t' ≤ t, ∀ z i, Waits D b z i → σ t' z (i : Int) = σ' t' z (i : Int)) →
    T σ t b = T σ' t b

/-- A register whose edges a block waits for is written as a whole. -/
def WholeClocks (D : Design) (es : List Event) : Prop :=
  ∀ b ∈ blocksOf es, ∀ v ∈ blockEvents b, ∀ z, v.signal = some z →
    ∀ b' ∈ blocksOf es, Clocked b' → ∀ w ∈ allWrites b'.stmt, w.sym = z → w.bounds = ⟨0, (D.width z : Int) - 1⟩

end Verif.Spec

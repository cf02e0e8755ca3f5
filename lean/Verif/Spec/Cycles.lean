import Verif.Spec.Nodes
import Verif.Spec.IfacePorts

/-!
Combinational dependences between the assignments, conditionals and cases of a design, without a graph.
-/
namespace Verif.Spec
open Verif.Model

/-- What block `b1` leaves in `y` is on a range of an interface variable from which `who` takes a value. `read`:
it reads the range. `port`: an input port of an instance takes its value from the range, and `who` reads it
inside or further down. -/
inductive Crosses (E : TravEnv) (es : List Event) (cuts : CutReg) (b1 : Deferred) (y : Nat) (who : NodeData) : Prop
  | read {b2 : Deferred} {x : Nat} {ds : List (Nat × Nat)} {d : Nat × Nat} {r : Ref} {Q : List Wr → Prop} :
    .variable x ds ∈ es → d ∈ ds → Unclocked es x → PutsOn E.D b1 y (x, ⟨d.1, (d.1 : Int) + d.2⟩) →
    b2 ∈ blocksOf es → Use Start b2.stmt who r Q → (∃ tr, Q tr) → ReadFits (allWrites b2.stmt) r.sym r.bounds →
    TakesFrom E.D r Q (x, ⟨d.1, (d.1 : Int) + d.2⟩) → Crosses E es cuts b1 y who
  | port {b2 : Deferred} {x z0 j0 z i : Nat} {ds : List (Nat × Nat)} {d : Nat × Nat} {p : PortDecl} {k : Conn}
      {r : Ref} {Q : List Wr → Prop} :
    .variable x ds ∈ es → d ∈ ds → Unclocked es x → PutsOn E.D b1 y (x, ⟨d.1, (d.1 : Int) + d.2⟩) →
    FromIface E es cuts p k j0 x ds ⟨d.1, (d.1 : Int) + d.2⟩ → LastSupply es z0 j0 p → Down E es z0 j0 z i →
    b2 ∈ blocksOf es → Use Start b2.stmt who r Q → (∃ tr, Q tr) → ReadFits (allWrites b2.stmt) r.sym r.bounds →
    r.sym = z → InRng r.bounds i → (∀ tr, Q tr → ∀ w ∈ tr, ¬ Hits true z i w) → E.D.kind z ≠ .modportPort →
    Bare es z → Crosses E es cuts b1 y who

/-- The value of `u` passes on to `v` without a register between them. `across`: an assignment can leave
a bit its value at the end of a block that is not edge-triggered, and `v` reads this bit, in this block
or another, up through output ports and down through input ports, where no write of the block precedes
the read. `inner`: the write of the bit is the last before the read on some path of one block.
`iface`: an assignment leaves a value that crosses an interface to `v`.
`control`: `u` is the condition in front of `v`, or both are one assignment that reads what it writes. -/
inductive Passes (E : TravEnv) (es : List Event) (cuts : CutReg) : NodeData → NodeData → Prop
  | across {b1 b2 : Deferred} {x j y q z i : Nat} {loc : TextLoc} {who : NodeData} {r : Ref} {Q : List Wr → Prop} :
    b1 ∈ blocksOf es → ¬ Clocked b1 → Leaves b1.stmt x j loc → Arrives E es cuts b1 x j y q →
    Down E es y q z i → b2 ∈ blocksOf es → Use Start b2.stmt who r Q → (∃ tr, Q tr) →
    ReadFits (allWrites b2.stmt) r.sym r.bounds → r.sym = z → InRng r.bounds i →
    (∀ tr, Q tr → ∀ w ∈ tr, ¬ Hits true z i w) → E.D.kind z ≠ .modportPort → Bare es z →
    Passes E es cuts (.assignment loc) who
  | inner {b : Deferred} {p : Int} {loc : TextLoc} {who : NodeData} {r : Ref} {Q : List Wr → Prop} {tr : List Wr} :
    b ∈ blocksOf es → Use Start b.stmt who r Q → ReadFits (allWrites b.stmt) r.sym r.bounds → Q tr →
    InRng r.bounds p → LastAt true tr r.sym p loc → Passes E es cuts (.assignment loc) who
  | iface {b : Deferred} {y j : Nat} {loc : TextLoc} {who : NodeData} : b ∈ blocksOf es → ¬ Clocked b →
    Leaves b.stmt y j loc → Crosses E es cuts b y who → Passes E es cuts (.assignment loc) who
  | control {b : Deferred} {u v : NodeData} : b ∈ blocksOf es → Inside b.stmt u v → Passes E es cuts u v

/-- No two assignments, conditionals or cases (or segments of an assignment) have the same place in the
text. -/
def Distinct (es : List Event) : Prop :=
  ∀ d, d.kind = .assignment ∨ d.kind = .conditional ∨ d.kind = .case → (textNodes es).count d ≤ 1

end Verif.Spec

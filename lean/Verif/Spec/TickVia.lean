import Verif.Spec.Tick
import Verif.Spec.IfaceClock

/-!
When the blocks of a design with interfaces fire.
-/
namespace Verif.Spec
open Verif.Model

/-- `v` depends on `u`: as `Moves`, for registers that are not on an interface, or over an interface from an
assignment of an edge-triggered block to what reads the bit. -/
inductive MovesVia (E : TravEnv) (es : List Event) (cuts : CutReg) : Point → Point → Prop
  | move {u v : Point} : Moves E es cuts u v → Off E es u → Off E es v → MovesVia E es cuts u v
  | cross {b : Deferred} {y j : Nat} {loc : TextLoc} {who : NodeData} : b ∈ blocksOf es → Kept b y j →
    Leaves b.stmt y j loc → Crosses E es cuts b y who → MovesVia E es cuts (.text (.assignment loc)) (.text who)

/-- What blocks wait for does not come over an interface, and registers on an interface do not leave through output
ports. -/
structure ClocksOff (E : TravEnv) (es : List Event) (cuts : CutReg) : Prop where
  waits : ∀ b ∈ blocksOf es, ∀ z i, Waits E.D b z i → ∀ y q, Brings E es y q z i → ¬ OnIface E es y
  inner : ∀ b ∈ blocksOf es, ∀ x j, Kept b x j → OnIface E es x → ∀ y q, ¬ Arrives E es cuts b x j y q

end Verif.Spec

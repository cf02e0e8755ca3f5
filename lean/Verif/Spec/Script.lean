import Verif.Model.Script

/-! Specification vocabulary for C93. -/
namespace Verif.Spec
open Verif.Model

/-- Whatever the builder holds when it comes to the block, the analysis of the block does exactly what the
list of operations says, fault for fault. -/
def Scripted (D : Design) (ord : Tracker → List (Nat × Nat)) (b : Deferred) (as : List BAct) : Prop :=
  ∀ s : Bld, s.handleBlock D ord b = (s.acts D [] as).map Prod.fst

end Verif.Spec

import Verif.Spec.Dependency
import Verif.Model.Dataflow

/-! What code that is never executed may leave behind. -/
namespace Verif.Spec
open Verif.Model

/-- No assignment is resolved bit by bit. -/
def TakenWhole : Stmt → Prop
  | .assign _ _ (.aligned _) => False
  | .seq s t | .choose _ s t => TakenWhole s ∧ TakenWhole t
  | _ => True

/-- Nothing is recorded between two states of the analysis: no driver, no pending read and no non-blocking assignment. All
nodes and edges are kept, and new edges are between new nodes only. -/
structure Untouched (s s' : Dfa) : Prop where
  trk : s'.trk = s.trk
  queue : s'.queue = s.queue
  nba : s'.nba = s.nba
  nodes : ∀ n ∈ s.net.g.nodes, n ∈ s'.net.g.nodes ∧ s'.net.data n = s.net.data n
  kept : ∀ a b, Joined s.net a b → Joined s'.net a b
  new : ∀ a b, Joined s'.net a b → Joined s.net a b ∨ (a ∉ s.net.g.nodes ∧ b ∉ s.net.g.nodes)

end Verif.Spec

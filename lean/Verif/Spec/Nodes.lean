import Verif.Spec.Sound

/-!
Which nodes a netlist has, read off the events of a design.
-/
namespace Verif.Spec
open Verif.Model

/-- The constants among the sources of a segment. -/
def constantsOf : List RSrc → List NodeData
  | [] => []
  | .constant v w l :: xs => .constant v w l :: constantsOf xs
  | _ :: xs => constantsOf xs

/-- The nodes of an assignment: one for each segment, or one if it has none to align, each followed by
its constants. -/
def asgNodes (loc : TextLoc) : Asg → List NodeData
  | .legacy _ => [.assignment loc]
  | .aligned segs => segs.flatMap fun g => .assignment g.loc :: constantsOf g.rhs

/-- The nodes of a statement in the order of the text, without merges. -/
def stmtNodes : Stmt → List NodeData
  | .skip | .reads _ | .dead => []
  | .assign loc _ a => asgNodes loc a
  | .branch k loc => [branchData k loc]
  | .seq s t | .choose _ s t => stmtNodes s ++ stmtNodes t

/-- Merges and registers, the nodes that do not correspond to one place in the text. -/
def NodeData.derived : NodeData → Bool
  | .merge | .state .. => true
  | _ => false

/-- The data of the nodes, in the order in which they were made. -/
def datas (net : NetGraph) : List NodeData := net.g.nodes.map net.data

/-- The number of alternatives in a statement. -/
def choices : Stmt → Nat
  | .seq s t => choices s + choices t
  | .choose _ s t => choices s + choices t + 1
  | _ => 0

/-- The nodes of the text of all blocks of a design, block by block. -/
def textNodes (es : List Event) : List NodeData := (blocksOf es).flatMap fun b => stmtNodes b.stmt

/-- `d` describes a node that a design with these events may have: one made for a port, an interface
variable or a constant connection, one of the text of a block, a register, or a merge. -/
def Belongs (E : TravEnv) (es : List Event) (G : Grain) (d : NodeData) : Prop :=
  (∃ ev ∈ es, Makes E.D ev d) ∨ d ∈ textNodes es ∨ (∃ b ∈ blocksOf es, ∃ y, RegOf E G b y d) ∨
    (d = .merge ∧ ∃ b ∈ blocksOf es, choices b.stmt ≠ 0)

end Verif.Spec

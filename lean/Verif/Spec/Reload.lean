import Verif.Model.Cli
import Verif.Model.Traverse
import Verif.Spec.Serial

/-!
Specification of a query on a netlist that was saved and loaded again: the report is the one of the
netlist that was saved.
-/
namespace Verif.Spec
open Verif.Model

/-- Two runs of the tool report the same: the same error, the same text, or tables with the same
header and the same rows in some order. -/
def SameReport : Except CliErr Report → Except CliErr Report → Prop
  | .error e, .error e' => e = e'
  | .ok (.table h rows), .ok (.table h' rows') => h = h' ∧ rows.Perm rows'
  | .ok r, .ok r' => r = r'
  | _, _ => False

/-- Reports whose rows follow the order of the in-edges of a node. -/
def ByInEdges : Action → Prop
  | .fanIn _ => True
  | .constants _ => True
  | .sensitivity _ => True
  | _ => False

/-- Reports that are about nodes and the way they are joined only. -/
def ByNodes : Action → Prop
  | .registers => True
  | .find _ => True
  | .findRegex _ => True
  | .fanOut _ => True
  | .fanIn _ => True
  | .constants _ => True
  | .noAction => True
  | _ => False

/-- All numbers in the netlist are those of the machine types. -/
structure Sized (net : NetGraph) : Prop where
  ids : ∀ n ∈ net.g.nodes, net.id n < 2 ^ 64
  data : ∀ n ∈ net.g.nodes, DataFits (net.data n)
  attr : ∀ e, EdgeOf net e → AttrFits (net.attr e.id)

/-- Symbols with the same path have the same record. -/
def Interned (D : Design) : Prop := ∀ y z, (D.ref y).path = (D.ref z).path → D.ref y = D.ref z

/-- The text of every constant of the netlist is read back as it is. -/
def ConstsKept (c : ConstCodec) (net : NetGraph) : Prop :=
  ∀ n ∈ net.g.nodes, ∀ v w l, net.data n = .constant v w l → readBack c v = v

/-- No two edges join the same two nodes in the same direction. -/
def NoParallel (net : NetGraph) : Prop := ∀ n ∈ net.g.nodes, ((net.g.obj n).outE.map Edge.tgt).Nodup

end Verif.Spec

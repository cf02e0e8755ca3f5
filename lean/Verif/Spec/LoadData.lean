import Verif.Spec.Serial

/-! What the entries of a file say. -/
namespace Verif.Spec
open Verif.Model

/-- A location object stands for a location. -/
def LocVal (j : Json) (l : TextLoc) : Prop :=
  Has j "fileIndex" (fun v => U32Val v l.file) ∧ Has j "line" (fun v => SizeVal v l.line) ∧
  Has j "column" fun v => SizeVal v l.col

/-- A symbol object stands for a symbol. -/
def SymVal (j : Json) (r : SymRef) : Prop :=
  Member j "name" (.str r.name) ∧ Member j "path" (.str r.path) ∧ Has j "location" fun v => LocVal v r.loc

/-- An array stands for a range. -/
def RangeVal (j : Json) (b : BitRange) : Prop := ∃ x y l, j = .arr (x :: y :: l) ∧ I32Val x b.left ∧ I32Val y b.right

/-- The members of a named node. -/
def NamedVal (j : Json) (n p : Str) (l : TextLoc) (b : BitRange) : Prop :=
  Member j "name" (.str n) ∧ Member j "path" (.str p) ∧ Has j "location" (fun v => LocVal v l) ∧
  Has j "bounds" fun v => RangeVal v b

/-- The entry has a kind. -/
def KindIs (j : Json) (k : NodeKind) : Prop := Member j "kind" (.str (kindName k))

/-- An entry of the node table describes a node; `val` gives the printed form of a saved constant. An unknown direction
counts as input, and an unknown kind as no kind. -/
def NodeSays (val : Str → Str) (j : Json) : NodeData → Prop
  | .port n p l d b => KindIs j .port ∧ NamedVal j n p l b ∧
      ∃ s, Member j "direction" (.str s) ∧ (s = dirName d ∨ d = .input ∧ ∀ e, s ≠ dirName e)
  | .variable n p l b => KindIs j .variable ∧ NamedVal j n p l b
  | .state n p l b => KindIs j .state ∧ NamedVal j n p l b
  | .assignment l => KindIs j .assignment ∧ Has j "location" fun v => LocVal v l
  | .conditional l => KindIs j .conditional ∧ Has j "location" fun v => LocVal v l
  | .case l => KindIs j .case ∧ Has j "location" fun v => LocVal v l
  | .constant t w l => KindIs j .constant ∧ Has j "width" (fun v => SizeVal v w) ∧
      (∃ s, Member j "value" (.str s) ∧ t = val s) ∧ Has j "location" fun v => LocVal v l
  | .merge => KindIs j .merge
  | .bare => ∃ s, Member j "kind" (.str s) ∧ ∀ k, k ≠ .none → s ≠ kindName k

/-- An edge entry names a symbol. -/
def EntrySym (j : Json) (r : SymRef) : Prop := Has j "symbol" fun s => SymVal s r

/-- An edge entry has annotations; of the symbol only the path counts. An unknown kind counts as none. -/
def EdgeSays (j : Json) (a : EdgeAttr) : Prop :=
  (∃ s, Member j "edgeKind" (.str s) ∧ (s = edgeName a.edgeKind ∨ a.edgeKind = .none ∧ ∀ e, s ≠ edgeName e)) ∧
  (match a.symbol with
    | none => Has j "symbol" fun s => ∀ v, ¬ Member s "name" v
    | some r => ∃ q, EntrySym j q ∧ q.path = r.path) ∧
  Has j "bounds" (fun v => RangeVal v a.bounds) ∧ Member j "disabled" (.bool a.disabled)

/-- An edge entry names the IDs of two node entries. -/
def Links (nodes : List Json) (j : Json) (a b : Nat) : Prop :=
  ∃ s t, IdField j "source" s ∧ IdField j "target" t ∧ Carries nodes a s ∧ Carries nodes b t

/-- The record of a symbol is that of the first of the entries which has its path. -/
def FirstSym (js : List Json) (r : SymRef) : Prop :=
  ∃ (k : Nat) (y : Json), js[k]? = some y ∧ EntrySym y r ∧ ∀ (m : Nat) (z : Json) (q : SymRef), m < k → js[m]? = some z → EntrySym z q → q.path ≠ r.path

end Verif.Spec

import Verif.Model.Reporter
import Verif.Spec.Glob

/-!
What the companion tool promises (docs/user-guide.dox:210-272): which symbols a `--scope` argument asks
for, which declarations a report lists, and what a table says that a JSON report says too.
-/
namespace Verif.Spec
open Verif.Model

/-- `t` is reached from `s` by going to members, zero or more times. -/
inductive Chain (next : SymTree → List SymTree) : SymTree → SymTree → Prop where
  | here (s : SymTree) : Chain next s s
  | down {s m t : SymTree} : m ∈ next s → Chain next m t → Chain next s t

/-- `t` is `s` or lies below it. -/
abbrev Beneath : SymTree → SymTree → Prop := Chain SymTree.kids

/-- Members of the elaborated tree: an uninstantiated body does not belong to it. -/
def SymTree.opens : SymTree → List SymTree
  | .inst _ true _ _ => []
  | t => t.kids

/-- The symbols of the elaborated tree whose path the pattern matches. -/
def Selected (root : SymTree) (pattern : Str) (t : SymTree) : Prop :=
  (∃ m ∈ root.kids, Chain SymTree.opens m t) ∧ t.head.path ≠ [] ∧
    Matches (pieces (visible pattern)) (visible t.head.path)

/-- An argument with a wildcard in it. -/
def Wild (s : Str) : Prop := '*' ∈ s ∨ '?' ∈ s ∨ ∃ a b, s = a ++ ['.', '.', '.'] ++ b

/-- The symbols a `--scope` argument asks for. -/
def AsksFor (root : SymTree) (lookup : Str → Option SymTree) (name : Str) (t : SymTree) : Prop :=
  (Wild name ∧ Selected root name t) ∨ (¬ Wild name ∧ lookup name = some t)

/-- Symbols are told apart by their identity, and names are looked up in the tree. -/
structure Identified (root : SymTree) (lookup : Str → Option SymTree) : Prop where
  inj : ∀ t t', Beneath root t → Beneath root t' → t.head.id = t'.head.id → t = t'
  found : ∀ n t, lookup n = some t → Beneath root t

mutual
/-- The symbols of a tree, a symbol before its members. -/
def symsOf : SymTree → List SymTree
  | .leaf h => [.leaf h]
  | .scope h ms => .scope h ms :: symsAll ms
  | .inst h u body c => .inst h u body c :: symsAll body

/-- The symbols of several trees in order. -/
def symsAll : List SymTree → List SymTree
  | [] => []
  | t :: ts => symsOf t ++ symsAll ts
end

/-- A symbol tree: every symbol occurs once, and only symbols without members are declarations. -/
structure Proper' (root : SymTree) : Prop where
  once : ((symsOf root).map fun t => t.head.id).Nodup
  decl : ∀ t, Beneath root t → (∃ h, t = .leaf h) ∨ t.head.kind = .other

/-- No instance of the tree is elaborated in the body of another. -/
def Unshared (root : SymTree) : Prop :=
  ∀ t, Beneath root t → ∀ h u b c, t ≠ .inst h u b (some c)

/-- Which declarations a report is about: ports; variables and nets; values. -/
def About : RptAct → DeclKind → Prop
  | .ports, k => ∃ d w n, k = .port d w n
  | .variables, k => (∃ t w ds, k = .var t w ds) ∨ ∃ n t w ds, k = .net n t w ds
  | .drivers, k => (∃ t w ds, k = .var t w ds) ∨ (∃ n t w ds, k = .net n t w ds) ∨ ∃ ds, k = .value ds

/-- The `--name` filters: none, or one of them matches the path. -/
def NamePasses (filters : List Str) (path : Str) : Prop :=
  filters = [] ∨ ∃ p ∈ filters, Matches (pieces (visible p)) (visible path)

/-- A member of a JSON object as the text of a cell. -/
def cellOf (j : Json) (key : String) : Str :=
  match j with
  | .obj l =>
    match l.lookup key with
    | some (.str s) => s
    | some (.int n) => decNat n.toNat
    | _ => []
  | _ => []

/-- The elements of an array that is a member of a JSON object. -/
def listOf (j : Json) (key : String) : List Json :=
  match j with
  | .obj l =>
    match l.lookup key with
    | some (.arr xs) => xs
    | _ => []
  | _ => []

/-- The heading of the column that holds a member of the JSON objects of a report. -/
def headingOf : String → Str
  | "name" => lit "Name"
  | "direction" => lit "Direction"
  | "width" => lit "Width"
  | "netType" => lit "Net Type"
  | "location" => lit "Location"
  | "type" => lit "Type"
  | "drivers" => lit "Drivers"
  | "value" => lit "Value"
  | "range" => lit "Range"
  | "driver" => lit "Driver"
  | "kind" => lit "Kind"
  | _ => []

/-- The headings of a table, in the order of the columns of `rowsSaying`. The kind of a driver stands
under "Type". -/
def headings : RptAct → List Str
  | .ports => ["direction", "name", "width", "netType", "location"].map headingOf
  | .variables => ["name", "type", "width", "kind", "drivers", "location"].map headingOf
  | .drivers => ["value", "range", "driver", "type", "location"].map headingOf

/-- The rows of a table that say the same as an object of the JSON report. -/
def rowsSaying : RptAct → Json → List (List Str)
  | .ports, j => [["direction", "name", "width", "netType", "location"].map (cellOf j)]
  | .variables, j => [["name", "type", "width", "kind", "drivers", "location"].map (cellOf j)]
  | .drivers, j =>
    [cellOf j "value", [], [], [], cellOf j "location"] ::
      (listOf j "drivers").map fun d =>
        lit "↳" :: ["range", "driver", "kind", "location"].map (cellOf d)

end Verif.Spec

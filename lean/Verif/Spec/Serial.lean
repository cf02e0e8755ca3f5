import Verif.Model.Serial

/-!
Specification of the file format: what a well-formed file contains, stated as relations on JSON
values, and what it means for two netlists to be the same up to renumbering.
-/
namespace Verif.Spec
open Verif.Model

/-- The member of an object. -/
def Member (j : Json) (k : String) (v : Json) : Prop := ∃ l, j = .obj l ∧ l.lookup k = some v

/-- A required member whose value satisfies `P`. -/
def Has (j : Json) (k : String) (P : Json → Prop) : Prop := ∃ v, Member j k v ∧ P v

def IsStr (j : Json) : Prop := ∃ s, j = .str s

def IsBool (j : Json) : Prop := ∃ b, j = .bool b

/-- The 32-bit signed number a JSON value stands for: integers count modulo 2^32, the fraction of
other numbers is dropped, booleans are numbers too. -/
def I32Val (j : Json) (v : Int) : Prop :=
  (∃ k : Int, j = .int (v + k * 2 ^ 32) ∧ -2 ^ 31 ≤ v ∧ v < 2 ^ 31) ∨
  (j = .flt v ∧ -2 ^ 31 ≤ v ∧ v < 2 ^ 31) ∨
  (j = .bool true ∧ v = 1) ∨ (j = .bool false ∧ v = 0)

/-- The 32-bit unsigned number a JSON value stands for. -/
def U32Val (j : Json) (v : Nat) : Prop :=
  (∃ k : Int, j = .int (v + k * 2 ^ 32) ∧ v < 2 ^ 32) ∨
  (j = .flt v ∧ v < 2 ^ 32) ∨
  (j = .bool true ∧ v = 1) ∨ (j = .bool false ∧ v = 0)

/-- The 64-bit unsigned number a JSON value stands for; booleans are not accepted. -/
def SizeVal (j : Json) (v : Nat) : Prop :=
  (∃ k : Int, j = .int (v + k * 2 ^ 64) ∧ v < 2 ^ 64) ∨ (j = .flt v ∧ v < 2 ^ 64)

def IsI32 (j : Json) : Prop := ∃ v, I32Val j v

def IsU32 (j : Json) : Prop := ∃ v, U32Val j v

def IsSize (j : Json) : Prop := ∃ v, SizeVal j v

/-- A location object. -/
def IsLoc (j : Json) : Prop := Has j "fileIndex" IsU32 ∧ Has j "line" IsSize ∧ Has j "column" IsSize

/-- A symbol object. -/
def IsSym (j : Json) : Prop := Has j "name" IsStr ∧ Has j "path" IsStr ∧ Has j "location" IsLoc

/-- A range: an array of at least two numbers. -/
def IsRange (j : Json) : Prop := ∃ a b l, j = .arr (a :: b :: l) ∧ IsI32 a ∧ IsI32 b

/-- The members every named node needs. -/
def IsNamed (j : Json) : Prop :=
  Has j "name" IsStr ∧ Has j "path" IsStr ∧ Has j "location" IsLoc ∧ Has j "bounds" IsRange

/-- The members a node entry needs for its kind. -/
def NodeEntry (j : Json) : Prop :=
  Has j "id" IsSize ∧ ∃ k, Member j "kind" (.str k) ∧
    (k = kindName .port → IsNamed j ∧ Has j "direction" IsStr) ∧
    (k = kindName .variable ∨ k = kindName .state → IsNamed j) ∧
    (k = kindName .assignment ∨ k = kindName .conditional ∨ k = kindName .case →
      Has j "location" IsLoc) ∧
    (k = kindName .constant → Has j "width" IsSize ∧ Has j "value" IsStr ∧ Has j "location" IsLoc)

/-- The members an edge entry needs. -/
def EdgeEntry (j : Json) : Prop :=
  Has j "source" IsSize ∧ Has j "target" IsSize ∧ Has j "edgeKind" IsStr ∧
  Has j "symbol" (fun s => ∀ nm, Member s "name" nm → IsSym s) ∧
  Has j "bounds" IsRange ∧ Has j "disabled" IsBool

/-- A member that holds a node ID. -/
def IdField (j : Json) (k : String) (i : Nat) : Prop := Has j k fun v => SizeVal v i

/-- What a loop over a JSON value visits: the elements of an array, the members' values of an object,
nothing for `null`, and any other value itself. -/
def elements : Json → List Json
  | .arr l => l
  | .obj l => l.map Prod.snd
  | .null => []
  | .bool b => [.bool b]
  | .int z => [.int z]
  | .flt f => [.flt f]
  | .str s => [.str s]

/-- A file that must load, given its node and edge entries. -/
def WellFormed (j : Json) (nodes edges : List Json) : Prop :=
  Has j "version" (fun v => I32Val v 3) ∧
  Has j "fileTable" (fun f => ∀ x ∈ elements f, IsStr x) ∧
  (∀ b, Member j "blackBoxes" b → ∀ x ∈ elements b, IsStr x) ∧
  Has j "nodes" (fun n => elements n = nodes) ∧
  Has j "edges" (fun e => elements e = edges) ∧
  (∀ x ∈ nodes, NodeEntry x) ∧ (∀ x ∈ edges, EdgeEntry x) ∧
  ∀ x ∈ edges, ∀ i, IdField x "source" i ∨ IdField x "target" i → ∃ y ∈ nodes, IdField y "id" i

/-- Entry `a` is the one an ID refers to: it carries the ID and no later entry does. -/
def Carries (nodes : List Json) (a i : Nat) : Prop :=
  (∃ y, nodes[a]? = some y ∧ IdField y "id" i) ∧
  ∀ b y, a < b → nodes[b]? = some y → ¬ IdField y "id" i

/-- A range written with its lower bound first. -/
def normRange (b : BitRange) : BitRange := ⟨min b.left b.right, max b.left b.right⟩

/-- The printed value of a constant after it was saved as `v` and loaded: that of the number `v` denotes, and that
of the default number if `v` is empty or denotes none. -/
def readBack (c : ConstCodec) : Str → Str
  | [] => c.bad
  | x :: v =>
    match c.decode (x :: v) with
    | some y => y
    | none => c.bad

/-- A node as it should be after loading: ranges are normalised, a constant's text is replaced by
what the codec makes of it, everything else is unchanged. -/
def normData (val : Str → Str) : NodeData → NodeData
  | .port n p l d b => .port n p l d (normRange b)
  | .variable n p l b => .variable n p l (normRange b)
  | .state n p l b => .state n p l (normRange b)
  | .constant v w l => .constant (val v) w l
  | d => d

/-- An edge's annotations as they should be after loading. -/
def normAttr (a : EdgeAttr) : EdgeAttr := { a with bounds := normRange a.bounds }

/-- The locations a file can hold. -/
def LocFits (l : TextLoc) : Prop := l.file < 2 ^ 32 ∧ l.line < 2 ^ 64 ∧ l.col < 2 ^ 64

/-- The ranges a file can hold: two 32-bit integers. -/
def RangeFits (b : BitRange) : Prop :=
  -2 ^ 31 ≤ b.left ∧ b.left < 2 ^ 31 ∧ -2 ^ 31 ≤ b.right ∧ b.right < 2 ^ 31

/-- The numbers in a node are those of the machine types. -/
def DataFits : NodeData → Prop
  | .port _ _ l _ b => LocFits l ∧ RangeFits b
  | .variable _ _ l b => LocFits l ∧ RangeFits b
  | .state _ _ l b => LocFits l ∧ RangeFits b
  | .assignment l => LocFits l
  | .conditional l => LocFits l
  | .case l => LocFits l
  | .constant _ w l => w < 2 ^ 64 ∧ LocFits l
  | .bare => True
  | .merge => True

/-- The numbers in an edge's annotations are those of the machine types. -/
def AttrFits (a : EdgeAttr) : Prop :=
  RangeFits a.bounds ∧ ∀ s, a.symbol = some s → LocFits s.loc

/-- The edges of a netlist. -/
def EdgeOf (net : NetGraph) (e : Edge) : Prop := ∃ n ∈ net.g.nodes, e ∈ (net.g.obj n).outE

/-- All numbers in the netlist are those of the machine types, and an edge symbol is determined by
its path (symbols are interned by path). -/
structure Savable (net : NetGraph) : Prop where
  ids : ∀ n ∈ net.g.nodes, net.id n < 2 ^ 64
  data : ∀ n ∈ net.g.nodes, DataFits (net.data n)
  attr : ∀ e, EdgeOf net e → AttrFits (net.attr e.id)
  syms : ∀ e f s t, EdgeOf net e → EdgeOf net f → (net.attr e.id).symbol = some s →
    (net.attr f.id).symbol = some t → s.path = t.path → s = t

/-- The out-edges of a node seen from outside: position of the target in the node list, and the
annotations. -/
def outView (net : NetGraph) (n : Nat) : List (Nat × EdgeAttr) :=
  (net.g.obj n).outE.map fun e => (net.g.nodes.idxOf e.tgt, net.attr e.id)

/-- Parallel edges are merged: the first keeps its place and takes the annotations of the last. -/
def mergePar : List (Nat × EdgeAttr) → List (Nat × EdgeAttr)
  | [] => []
  | (t, a) :: l =>
    (t, ((l.reverse.find? fun x => x.1 == t).map Prod.snd).getD a) ::
      (mergePar l).filter fun x => x.1 != t

end Verif.Spec

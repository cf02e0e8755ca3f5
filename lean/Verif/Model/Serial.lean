import Verif.Model.NetGraph
import Verif.Model.Wildcard

/-!
Saving and loading: `source/NetlistSerializer.cpp`.

The model works on JSON values; `json::parse` and `json::dump` (lines 258, 267) are taken to be
inverse to each other. The accessors behave as documented for nlohmann::json, on a platform where
`size_t` is the library's unsigned number type.
-/
namespace Verif.Model

/-- A JSON value (source/NetlistSerializer.cpp:10). `int` are numbers written without fraction or
exponent that fit 64 bits; `flt` are all other numbers, of which only the integer part matters here.
An object is its list of members in iteration order. -/
inductive Json where
  | null
  | bool (b : Bool)
  | int (n : Int)
  | flt (trunc : Int)
  | str (s : Str)
  | arr (l : List Json)
  | obj (l : List (String × Json))

/-- Why loading fails (source/NetlistSerializer.cpp:265-404): a wrong JSON type or a missing member
(thrown by the accessors), another version (270-273), an edge with an unknown node (385-387). When
an entry has several defects, which of them is reported is not modelled. `ub`
is a floating-point number outside the range of the integer type it is converted to, and
`assertion` a failed assertion of the graph. -/
inductive LoadErr where
  | type | missing | version | unknownNode | ub | assertion
deriving DecidableEq, Repr

/-- `json::at` (source/NetlistSerializer.cpp:269 and throughout). -/
def Json.at (j : Json) (k : String) : Except LoadErr Json :=
  match j with
  | .obj l =>
    match l.lookup k with
    | some v => .ok v
    | none => .error .missing
  | _ => .error .type

/-- `json::contains` (source/NetlistSerializer.cpp:281, 393). -/
def Json.contains (j : Json) (k : String) : Bool :=
  match j with
  | .obj l => (l.lookup k).isSome
  | _ => false

/-- Range-based iteration (source/NetlistSerializer.cpp:276, 282, 290, 379): over the elements of
an array or the members of an object; `null` has none and any other value is its own only element. -/
def Json.iter : Json → List Json
  | .arr l => l
  | .obj l => l.map Prod.snd
  | .null => []
  | j => [j]

/-- `get<std::string>` (source/NetlistSerializer.cpp:277 and throughout). -/
def Json.getStr : Json → Except LoadErr Str
  | .str s => .ok s
  | _ => .error .type

/-- `get<bool>` (source/NetlistSerializer.cpp:402). -/
def Json.getBool : Json → Except LoadErr Bool
  | .bool b => .ok b
  | _ => .error .type

/-- Conversion to a 32-bit signed integer (source/NetlistSerializer.cpp:269): modulo 2^32. -/
def wrapS32 (n : Int) : Int := (n + 2147483648) % 4294967296 - 2147483648

/-- `get<int>`, `get<int32_t>` (source/NetlistSerializer.cpp:269, 304-305, 400-401): numbers are
cast, booleans count as 0 and 1. -/
def Json.getI32 : Json → Except LoadErr Int
  | .int n => .ok (wrapS32 n)
  | .flt t => if -2147483648 ≤ t ∧ t ≤ 2147483647 then .ok t else .error .ub
  | .bool b => .ok (if b then 1 else 0)
  | _ => .error .type

/-- `get<uint32_t>` (source/NetlistSerializer.cpp:135). -/
def Json.getU32 : Json → Except LoadErr Nat
  | .int n => .ok (n % 4294967296).toNat
  | .flt t => if 0 ≤ t ∧ t ≤ 4294967295 then .ok t.toNat else .error .ub
  | .bool b => .ok (if b then 1 else 0)
  | _ => .error .type

/-- `get<size_t>`, `get<uint64_t>` (source/NetlistSerializer.cpp:135-136, 291, 346, 380-381): the
library's own unsigned type, which rejects booleans. -/
def Json.getSize : Json → Except LoadErr Nat
  | .int n => .ok (n % 18446744073709551616).toNat
  | .flt t => if 0 ≤ t ∧ t ≤ 18446744073709551615 then .ok t.toNat else .error .ub
  | _ => .error .type

/-- `operator[]` with a position on a non-const copy (source/NetlistSerializer.cpp:298-305,
399-401): null and
short arrays are extended with nulls. -/
def Json.elem (j : Json) (i : Nat) : Except LoadErr Json :=
  match j with
  | .arr l => .ok (l.getD i .null)
  | .null => .ok .null
  | _ => .error .type

/-- Member `k` read with `get` (source/NetlistSerializer.cpp:269 and throughout). -/
def Json.member {α : Type} (j : Json) (k : String) (get : Json → Except LoadErr α) :
    Except LoadErr α :=
  match j.at k with
  | .error e => .error e
  | .ok v => get v

/-- `nodeKindToString` (source/NetlistSerializer.cpp:18-40). -/
def kindName : NodeKind → Str
  | .none => ['N', 'o', 'n', 'e']
  | .port => ['P', 'o', 'r', 't']
  | .variable => ['V', 'a', 'r', 'i', 'a', 'b', 'l', 'e']
  | .assignment => ['A', 's', 's', 'i', 'g', 'n', 'm', 'e', 'n', 't']
  | .conditional => ['C', 'o', 'n', 'd', 'i', 't', 'i', 'o', 'n', 'a', 'l']
  | .case => ['C', 'a', 's', 'e']
  | .merge => ['M', 'e', 'r', 'g', 'e']
  | .state => ['S', 't', 'a', 't', 'e']
  | .constant => ['C', 'o', 'n', 's', 't', 'a', 'n', 't']

/-- `nodeKindFromString` (source/NetlistSerializer.cpp:42-68). -/
def kindOf (s : Str) : NodeKind :=
  if s = ['P', 'o', 'r', 't'] then .port
  else if s = ['V', 'a', 'r', 'i', 'a', 'b', 'l', 'e'] then .variable
  else if s = ['A', 's', 's', 'i', 'g', 'n', 'm', 'e', 'n', 't'] then .assignment
  else if s = ['C', 'o', 'n', 'd', 'i', 't', 'i', 'o', 'n', 'a', 'l'] then .conditional
  else if s = ['C', 'a', 's', 'e'] then .case
  else if s = ['M', 'e', 'r', 'g', 'e'] then .merge
  else if s = ['S', 't', 'a', 't', 'e'] then .state
  else if s = ['C', 'o', 'n', 's', 't', 'a', 'n', 't'] then .constant
  else .none

/-- `edgeKindToString` (source/NetlistSerializer.cpp:70-82). -/
def edgeName : EdgeKind → Str
  | .none => ['N', 'o', 'n', 'e']
  | .posEdge => ['P', 'o', 's', 'E', 'd', 'g', 'e']
  | .negEdge => ['N', 'e', 'g', 'E', 'd', 'g', 'e']
  | .bothEdges => ['B', 'o', 't', 'h', 'E', 'd', 'g', 'e', 's']

/-- `edgeKindFromString` (source/NetlistSerializer.cpp:84-95). -/
def edgeOf (s : Str) : EdgeKind :=
  if s = ['P', 'o', 's', 'E', 'd', 'g', 'e'] then .posEdge
  else if s = ['N', 'e', 'g', 'E', 'd', 'g', 'e'] then .negEdge
  else if s = ['B', 'o', 't', 'h', 'E', 'd', 'g', 'e', 's'] then .bothEdges
  else .none

/-- `directionToString` (source/NetlistSerializer.cpp:97-109). -/
def dirName : ArgDir → Str
  | .input => ['I', 'n']
  | .output => ['O', 'u', 't']
  | .inout => ['I', 'n', 'O', 'u', 't']
  | .ref => ['R', 'e', 'f']

/-- `directionFromString` (source/NetlistSerializer.cpp:111-123). -/
def dirOf (s : Str) : ArgDir :=
  if s = ['O', 'u', 't'] then .output
  else if s = ['I', 'n', 'O', 'u', 't'] then .inout
  else if s = ['R', 'e', 'f'] then .ref
  else .input

/-- `locationToJson` (source/NetlistSerializer.cpp:129-132). -/
def locJson (l : TextLoc) : Json :=
  .obj [("column", .int l.col), ("fileIndex", .int l.file), ("line", .int l.line)]

/-- `locationFromJson` (source/NetlistSerializer.cpp:134-137). -/
def locOf (j : Json) : Except LoadErr TextLoc :=
  match j.member "fileIndex" Json.getU32, j.member "line" Json.getSize,
      j.member "column" Json.getSize with
  | .ok f, .ok l, .ok c => .ok ⟨f, l, c⟩
  | .error e, _, _ => .error e
  | _, .error e, _ => .error e
  | _, _, .error e => .error e

/-- `symbolToJson` (source/NetlistSerializer.cpp:139-145). -/
def symJson (s : SymRef) : Json :=
  .obj [("location", locJson s.loc), ("name", .str s.name), ("path", .str s.path)]

/-- `symbolFromJson` (source/NetlistSerializer.cpp:147-150). -/
def symOf (j : Json) : Except LoadErr SymRef :=
  match j.member "name" Json.getStr, j.member "path" Json.getStr, j.member "location" locOf with
  | .ok n, .ok p, .ok l => .ok ⟨n, p, l⟩
  | .error e, _, _ => .error e
  | _, .error e, _ => .error e
  | _, _, .error e => .error e

/-- A range is written as its lower and upper bound (source/NetlistSerializer.cpp:188, 197, 205,
251). -/
def boundsJson (b : BitRange) : Json := .arr [.int b.lower, .int b.upper]

/-- Reading a range (source/NetlistSerializer.cpp:298-305, 399-401). -/
def boundsOf (j : Json) : Except LoadErr BitRange :=
  match j.elem 0, j.elem 1 with
  | .ok a, .ok b =>
    match a.getI32, b.getI32 with
    | .ok x, .ok y => .ok ⟨x, y⟩
    | .error e, _ => .error e
    | _, .error e => .error e
  | .error e, _ => .error e
  | _, .error e => .error e

/-- One entry of "nodes" (source/NetlistSerializer.cpp:177-234). Members are listed in the order of
the library's sorted objects. -/
def nodeJson (id : Nat) : NodeData → Json
  | .bare => .obj [("id", .int id), ("kind", .str (kindName .none))]
  | .port n p l d b => .obj [("bounds", boundsJson b), ("direction", .str (dirName d)),
      ("id", .int id), ("kind", .str (kindName .port)), ("location", locJson l), ("name", .str n),
      ("path", .str p)]
  | .variable n p l b => .obj [("bounds", boundsJson b), ("id", .int id),
      ("kind", .str (kindName .variable)), ("location", locJson l), ("name", .str n),
      ("path", .str p)]
  | .state n p l b => .obj [("bounds", boundsJson b), ("id", .int id),
      ("kind", .str (kindName .state)), ("location", locJson l), ("name", .str n),
      ("path", .str p)]
  | .assignment l => .obj [("id", .int id), ("kind", .str (kindName .assignment)),
      ("location", locJson l)]
  | .conditional l => .obj [("id", .int id), ("kind", .str (kindName .conditional)),
      ("location", locJson l)]
  | .case l => .obj [("id", .int id), ("kind", .str (kindName .case)), ("location", locJson l)]
  | .merge => .obj [("id", .int id), ("kind", .str (kindName .merge))]
  | .constant v w l => .obj [("id", .int id), ("kind", .str (kindName .constant)),
      ("location", locJson l), ("value", .str v), ("width", .int w)]

/-- One entry of "edges" (source/NetlistSerializer.cpp:244-254). -/
def edgeJson (src tgt : Nat) (a : EdgeAttr) : Json :=
  .obj [("bounds", boundsJson a.bounds), ("disabled", .bool a.disabled),
    ("edgeKind", .str (edgeName a.edgeKind)), ("source", .int src),
    ("symbol", match a.symbol with
      | some s => symJson s
      | none => .obj []),
    ("target", .int tgt)]

/-- `formatVersion` (include/netlist/NetlistSerializer.hpp:32). -/
def formatVersion : Int := 3

/-- `serialize` (source/NetlistSerializer.cpp:156-259). `files` are the names in the file table in
index order. -/
def save (net : NetGraph) (files : List Str) : Json :=
  .obj [("blackBoxes", .arr (net.blackBoxes.map .str)),
    ("edges", .arr (net.g.nodes.flatMap fun n => (net.g.obj n).outE.map fun e =>
      edgeJson (net.id e.src) (net.id e.tgt) (net.attr e.id))),
    ("fileTable", .arr (files.map .str)),
    ("nodes", .arr (net.g.nodes.map fun n => nodeJson (net.id n) (net.data n))),
    ("version", .int formatVersion)]

/-- How constants are printed again after loading (source/NetlistSerializer.cpp:347-359): the text
is parsed by `SVInt::fromString`; `decode` is the printed form of its result, `none` when it throws,
and `bad` the printed form of the default-constructed value used then and for empty text. -/
structure ConstCodec where
  decode : Str → Option Str
  bad : Str

/-- The value a constant gets (source/NetlistSerializer.cpp:348-359). -/
def ConstCodec.load (c : ConstCodec) (s : Str) : Str :=
  if s = [] then c.bad else (c.decode s).getD c.bad

/-- Name, path, location and range of a named node (source/NetlistSerializer.cpp:297-330). -/
def namedOf (j : Json) : Except LoadErr (Str × Str × TextLoc × BitRange) :=
  match j.at "bounds" with
  | .error e => .error e
  | .ok bj =>
    match j.member "name" Json.getStr, j.member "path" Json.getStr, j.member "location" locOf,
        boundsOf bj with
    | .ok n, .ok p, .ok l, .ok b => .ok (n, p, l, b)
    | .error e, _, _, _ => .error e
    | _, .error e, _, _ => .error e
    | _, _, .error e, _ => .error e
    | _, _, _, .error e => .error e

/-- The node of one entry (source/NetlistSerializer.cpp:294-372). -/
def nodeDataOf (c : ConstCodec) (k : NodeKind) (j : Json) : Except LoadErr NodeData :=
  match k with
  | .port =>
    match namedOf j, j.member "direction" Json.getStr with
    | .ok (n, p, l, b), .ok d => .ok (.port n p l (dirOf d) b)
    | .error e, _ => .error e
    | _, .error e => .error e
  | .variable => (namedOf j).map fun (n, p, l, b) => .variable n p l b
  | .state => (namedOf j).map fun (n, p, l, b) => .state n p l b
  | .assignment => (j.member "location" locOf).map .assignment
  | .conditional => (j.member "location" locOf).map .conditional
  | .case => (j.member "location" locOf).map .case
  | .constant =>
    match j.member "width" Json.getSize, j.member "value" Json.getStr, j.member "location" locOf with
    | .ok w, .ok v, .ok l => .ok (.constant (c.load v) w l)
    | .error e, _, _ => .error e
    | _, .error e, _ => .error e
    | _, _, .error e => .error e
  | .merge => .ok .merge
  | .none => .ok .bare

/-- ID and node of one entry (source/NetlistSerializer.cpp:290-372). -/
def nodeOf (c : ConstCodec) (j : Json) : Except LoadErr (Nat × NodeData) :=
  match j.member "id" Json.getSize, j.member "kind" Json.getStr with
  | .ok id, .ok k =>
    match nodeDataOf c (kindOf k) j with
    | .ok d => .ok (id, d)
    | .error e => .error e
  | .error e, _ => .error e
  | _, .error e => .error e

/-- `SymbolTable::intern` (include/netlist/SymbolReference.hpp:44-61), sequentially: the first
record with the path, or the new one. -/
def internSym (syms : List SymRef) (s : SymRef) : List SymRef × SymRef :=
  match syms.find? fun r => decide (r.path = s.path) with
  | some r => (syms, r)
  | none => (syms ++ [s], s)

/-- `FileTable::addFile` (include/netlist/TextLocation.hpp:32-45), sequentially. -/
def addFileSeq (files : List Str) (name : Str) : List Str :=
  if name ∈ files then files else files ++ [name]

/-- What loading builds (source/NetlistSerializer.cpp:265-404): the graph, its file and symbol
tables, and the map from IDs in the file to nodes. -/
structure LoadSt where
  net : NetGraph := {}
  files : List Str := []
  syms : List SymRef := []
  idMap : Nat → Option Nat := fun _ => none

/-- The file table loop (source/NetlistSerializer.cpp:276-278). -/
def loadFiles (files : List Str) : List Json → Except LoadErr (List Str)
  | [] => .ok files
  | j :: js =>
    match j.getStr with
    | .error e => .error e
    | .ok s => loadFiles (addFileSeq files s) js

/-- The black box loop (source/NetlistSerializer.cpp:281-285). -/
def loadBoxes (boxes : List Str) : List Json → Except LoadErr (List Str)
  | [] => .ok boxes
  | j :: js =>
    match j.getStr with
    | .error e => .error e
    | .ok s => loadBoxes (boxes ++ [s]) js

/-- The node loop (source/NetlistSerializer.cpp:290-376). -/
def loadNodes (c : ConstCodec) (st : LoadSt) : List Json → Except LoadErr LoadSt
  | [] => .ok st
  | j :: js =>
    match nodeOf c j with
    | .error e => .error e
    | .ok (id, d) =>
      match st.net.call (.addNode d) with
      | none => .error .assertion
      | some net' =>
        loadNodes c { st with
          net := net'
          idMap := fun k => if k = id then some st.net.g.nextNode else st.idMap k } js

/-- The annotations of one edge entry (source/NetlistSerializer.cpp:390-402). -/
def edgeAttrOf (syms : List SymRef) (j : Json) : Except LoadErr (List SymRef × EdgeAttr) :=
  match j.member "edgeKind" Json.getStr with
  | .error e => .error e
  | .ok k =>
    match j.at "symbol" with
    | .error e => .error e
    | .ok sj =>
      let sym : Except LoadErr (List SymRef × Option SymRef) :=
        if sj.contains "name" then
          match symOf sj with
          | .error e => .error e
          | .ok s => let r := internSym syms s; .ok (r.1, some r.2)
        else .ok (syms, none)
      match sym with
      | .error e => .error e
      | .ok (syms', so) =>
        match j.member "bounds" boundsOf, j.member "disabled" Json.getBool with
        | .ok b, .ok d => .ok (syms', ⟨edgeOf k, so, b, d⟩)
        | .error e, _ => .error e
        | _, .error e => .error e

/-- One edge entry (source/NetlistSerializer.cpp:379-403): `addEdge` returns an existing edge
between the two nodes if there is one, and the annotations are written to it. -/
def loadEdge (st : LoadSt) (j : Json) : Except LoadErr LoadSt :=
  match j.member "source" Json.getSize, j.member "target" Json.getSize with
  | .error e, _ => .error e
  | _, .error e => .error e
  | .ok s, .ok t =>
    match st.idMap s, st.idMap t with
    | some a, some b =>
      match st.net.call (.addEdge a b) with
      | none => .error .assertion
      | some net' =>
        match edgeAttrOf st.syms j with
        | .error e => .error e
        | .ok (syms', attr) =>
          match net'.call (.setAttr (st.net.g.addEdge a b).2.id attr) with
          | none => .error .assertion
          | some net'' => .ok { st with net := net'', syms := syms' }
    | _, _ => .error .unknownNode

/-- The edge loop (source/NetlistSerializer.cpp:379-403). -/
def loadEdges (st : LoadSt) : List Json → Except LoadErr LoadSt
  | [] => .ok st
  | j :: js =>
    match loadEdge st j with
    | .error e => .error e
    | .ok st' => loadEdges st' js

/-- The black boxes of a file; none when the member is absent
(source/NetlistSerializer.cpp:280-285). -/
def boxesOf (j : Json) : Except LoadErr (List Str) :=
  if j.contains "blackBoxes" then
    match j.at "blackBoxes" with
    | .error e => .error e
    | .ok bj => loadBoxes [] bj.iter
  else .ok []

/-- `deserialize` (source/NetlistSerializer.cpp:265-404) into an empty graph. An error leaves the
graph partly filled; the model returns only the error. -/
def load (c : ConstCodec) (j : Json) : Except LoadErr LoadSt :=
  match j.member "version" Json.getI32 with
  | .error e => .error e
  | .ok v =>
    if v ≠ formatVersion then .error .version
    else
      match j.at "fileTable" with
      | .error e => .error e
      | .ok fj =>
        match loadFiles [] fj.iter with
        | .error e => .error e
        | .ok files =>
          match boxesOf j with
          | .error e => .error e
          | .ok boxes =>
            match j.at "nodes" with
            | .error e => .error e
            | .ok nj =>
              match loadNodes c { net := { blackBoxes := boxes }, files := files } nj.iter with
              | .error e => .error e
              | .ok st =>
                match j.at "edges" with
                | .error e => .error e
                | .ok ej => loadEdges st ej.iter

end Verif.Model

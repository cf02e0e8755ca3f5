import Verif.Model.NetGraph

/-!
Model of the name-based queries of `source/NetlistGraph.cpp`: the lazily built name index,
`lookup`, `findNodes`, `getDrivers`, `getBitDrivers` and `getBlackBoxCoverage`.
-/
namespace Verif.Model

/-- `nodeIndex[path].push_back(node)` (source/NetlistGraph.cpp:33): append to an existing bucket
or create one. Buckets are kept in creation order; the order of an `unordered_map` is
unspecified, so results that depend on it are only compared up to permutation. -/
def indexAdd : List (Str × List Nat) → Str → Nat → List (Str × List Nat)
  | [], p, n => [(p, [n])]
  | (q, ns) :: ix, p, n => if q = p then (q, ns ++ [n]) :: ix else (q, ns) :: indexAdd ix p n

/-- The loop of `buildIndex` (source/NetlistGraph.cpp:30-35). -/
def mkIndex (net : NetGraph) : List Nat → List (Str × List Nat) → List (Str × List Nat)
  | [], ix => ix
  | n :: ns, ix =>
    match (net.data n).path with
    | some p => mkIndex net ns (indexAdd ix p n)
    | none => mkIndex net ns ix

/-- A netlist together with its index; `none` is `indexBuilt == false`
(include/netlist/NetlistGraph.hpp:206-207). -/
structure Session where
  net : NetGraph := {}
  index : Option (List (Str × List Nat)) := none

/-- `buildIndex` (source/NetlistGraph.cpp:27-37): once built, the index is never rebuilt. -/
def Session.ensureIndex (s : Session) : Session × List (Str × List Nat) :=
  match s.index with
  | some ix => (s, ix)
  | none => let ix := mkIndex s.net s.net.g.nodes []; ({ s with index := some ix }, ix)

/-- `lookup(name)` (source/NetlistGraph.cpp:39-45). -/
def Session.lookup (s : Session) (name : Str) : Option Nat :=
  match s.ensureIndex.2.lookup name with
  | none => none
  | some ns => ns.head?

/-- `lookup(name, bounds)` (source/NetlistGraph.cpp:47-61). -/
def Session.lookupRange (s : Session) (name : Str) (r : BitRange) : List Nat :=
  match s.ensureIndex.2.lookup name with
  | none => []
  | some ns => ns.filter fun n =>
      match (s.net.data n).bounds with
      | some b => b.overlaps r
      | none => false

/-- `findNodes`/`findNodesRegex` (source/NetlistGraph.cpp:258-282) for a given decision
procedure on names. Embedded NUL characters, which `c_str()` would cut, are not modelled. -/
def Session.findNodes (s : Session) (matches_ : Str → Bool) : List Nat :=
  s.ensureIndex.2.flatMap fun b => if matches_ b.1 then b.2 else []

/-- What a client does with a session: change the netlist, or issue some name query (whose only
effect is to build the index, source/NetlistGraph.cpp:40, 49,
260, 273). -/
inductive SOp where
  | mutate (op : NetOp)
  | query

/-- One client action (source/NetlistGraph.cpp:40, 49, 260, 273). -/
def Session.step (s : Session) : SOp → Option Session
  | .mutate op => (s.net.call op).map fun net => { s with net := net }
  | .query => some s.ensureIndex.1

/-- A history of client actions (source/NetlistGraph.cpp:27-61, 258-282). -/
def Session.steps (s : Session) : List SOp → Option Session
  | [] => some s
  | op :: ops =>
    match s.step op with
    | none => none
    | some s' => Session.steps s' ops

/-- Does the edge carry the named symbol (source/NetlistGraph.cpp:70, 91)? -/
def edgeNamed (net : NetGraph) (name : Str) (e : Edge) : Bool :=
  match (net.attr e.id).symbol with
  | none => false
  | some s => s.path == name

/-- Inner loop of `getDrivers` (source/NetlistGraph.cpp:69-80). -/
def driversEdges (net : NetGraph) (name : Str) (r : BitRange) : List Edge → List Nat → List Nat
  | [], acc => acc
  | e :: es, acc =>
    if !edgeNamed net name e then driversEdges net name r es acc
    else if !(net.attr e.id).bounds.overlaps r then driversEdges net name r es acc
    else if e.src ∈ acc then driversEdges net name r es acc
    else driversEdges net name r es (acc ++ [e.src])

/-- `getDrivers` (source/NetlistGraph.cpp:63-83). `seen` and `result` always hold the same
nodes. -/
def getDrivers (net : NetGraph) (name : Str) (r : BitRange) : List Nat :=
  net.g.nodes.foldl (fun acc n => driversEdges net name r (net.g.obj n).outE acc) []

/-- `BitDriver` (include/netlist/NetlistGraph.hpp:84-87). -/
structure BitDriver where
  bounds : BitRange
  driver : Nat
deriving DecidableEq, Repr

/-- Entries collected from one node (source/NetlistGraph.cpp:90-99). -/
def bitDriversEdges (net : NetGraph) (name : Str) (r : BitRange) : List Edge → List BitDriver
  | [] => []
  | e :: es =>
    if !edgeNamed net name e then bitDriversEdges net name r es
    else match (net.attr e.id).bounds.intersection r with
      | none => bitDriversEdges net name r es
      | some c => ⟨c, e.src⟩ :: bitDriversEdges net name r es

/-- The sort key (source/NetlistGraph.cpp:101-103). -/
def BitDriver.key (b : BitDriver) : Int × Int × Nat := (b.bounds.lower, b.bounds.upper, b.driver)

/-- `key(a) < key(b)` on tuples (source/NetlistGraph.cpp:106). -/
def BitDriver.less (a b : BitDriver) : Bool :=
  if a.key.1 < b.key.1 then true else if b.key.1 < a.key.1 then false
  else if a.key.2.1 < b.key.2.1 then true else if b.key.2.1 < a.key.2.1 then false
  else a.key.2.2 < b.key.2.2

/-- `std::sort` by key (source/NetlistGraph.cpp:104-106), modelled as insertion sort; entries
with equal keys are equal, so instability is invisible. -/
def bdInsert (b : BitDriver) : List BitDriver → List BitDriver
  | [] => [b]
  | c :: cs => if c.less b then c :: bdInsert b cs else b :: c :: cs

/-- See `bdInsert` (source/NetlistGraph.cpp:104-106). -/
def bdSort : List BitDriver → List BitDriver
  | [] => []
  | b :: bs => bdInsert b (bdSort bs)

/-- `std::unique` (source/NetlistGraph.cpp:107-111): drop consecutive entries with equal keys. -/
def bdUnique : List BitDriver → List BitDriver
  | [] => []
  | [b] => [b]
  | a :: b :: l => if a.key = b.key then bdUnique (a :: l) else a :: bdUnique (b :: l)
termination_by l => l.length

/-- `getBitDrivers(name, bounds)` (source/NetlistGraph.cpp:85-113). -/
def getBitDrivers (net : NetGraph) (name : Str) (r : BitRange) : List BitDriver :=
  bdUnique (bdSort (net.g.nodes.flatMap fun n => bitDriversEdges net name r (net.g.obj n).outE))

/-- The range used by the whole-symbol overload (source/NetlistGraph.cpp:119-120). -/
def wholeRange : BitRange := ⟨0, 2147483647⟩

/-- `getBitDrivers(name)` (source/NetlistGraph.cpp:115-121). -/
def getBitDriversAll (net : NetGraph) (name : Str) : List BitDriver :=
  getBitDrivers net name wholeRange

/-- `BlackBoxCoverage` (include/netlist/NetlistGraph.hpp:34-41). -/
inductive Coverage where
  | outside | boundary | contained
deriving DecidableEq, Repr

/-- The loop of `getBlackBoxCoverage` (source/NetlistGraph.cpp:291-310). `none` is an access
beyond the end of the path (line 299). -/
def coverLoop (isPort : Bool) (path : Str) : List Str → Coverage → Option Coverage
  | [], r => some r
  | b :: bs, r =>
    if !b.isPrefixOf path then coverLoop isPort path bs r
    else if path.length = b.length then some .contained
    else match path[b.length]? with
      | none => none
      | some ch =>
        if ch ≠ '.' then coverLoop isPort path bs r
        else if isPort && !(path.drop (b.length + 1)).contains '.' then
          coverLoop isPort path bs .boundary
        else some .contained

/-- `getBlackBoxCoverage` (source/NetlistGraph.cpp:284-311). -/
def coverage (net : NetGraph) (n : Nat) : Option Coverage :=
  match (net.data n).path with
  | none => some .outside
  | some p => coverLoop (net.kind n == .port) p net.blackBoxes .outside

end Verif.Model

import Verif.Model.Queries
import Verif.Model.Lookup
import Verif.Model.Wildcard
import Verif.Model.RangeArg
import Verif.Model.Dot

/-!
The query part of the command-line tool: tools/driver/driver.cpp:767-1052, run on a loaded netlist
(no compilation, so paths are reported as text).
-/
namespace Verif.Model

/-- The options read by the query part (tools/driver/driver.cpp:244-250, 278-344). -/
structure Flags where
  registers : Option Bool := none
  loops : Option Bool := none
  dot : Option Str := none
  start : Option Str := none
  stop : Option Str := none
  fanOut : Option Str := none
  fanIn : Option Str := none
  sensitivity : Option Str := none
  constants : Option Str := none
  drivers : Option Str := none
  find : Option Str := none
  findRegex : Option Str := none
deriving DecidableEq

/-- What restricts the rendered DOT graph (tools/driver/driver.cpp:830-860). -/
inductive DotScope where
  | all
  | fanOut (name : Str)
  | fanIn (name : Str)
  | path (start stop : Str)
deriving DecidableEq

/-- The report chosen by the tool (tools/driver/driver.cpp:781-1051). -/
inductive Action where
  | registers
  | loops
  | dot (file : Str) (scope : DotScope)
  | find (pattern : Str)
  | findRegex (pattern : Str)
  | fanOut (name : Str)
  | fanIn (name : Str)
  | sensitivity (name : Str)
  | constants (name : Str)
  | drivers (spec : Str)
  | path (start stop : Str)
  | noAction
deriving DecidableEq

/-- The aliasing of lone endpoints (tools/driver/driver.cpp:775-779). -/
def aliasEndpoints (f : Flags) : Flags :=
  if f.start.isSome && f.stop.isNone && f.fanOut.isNone then { f with fanOut := f.start }
  else if f.stop.isSome && f.start.isNone && f.fanIn.isNone then { f with fanIn := f.stop }
  else f

/-- The scope of a DOT report (tools/driver/driver.cpp:830-860). -/
def dotScope (f : Flags) : DotScope :=
  match f.fanOut, f.fanIn, f.start, f.stop with
  | some n, _, _, _ => .fanOut n
  | none, some n, _, _ => .fanIn n
  | none, none, some a, some b => .path a b
  | none, none, _, _ => .all

/-- The chain of `if`s after aliasing (tools/driver/driver.cpp:781-1051). `reportRegisters` and
`combLoops` are `optional<bool>` tested for presence, not for their value. -/
def dispatch (f : Flags) : Action :=
  if f.registers.isSome then .registers
  else if f.loops.isSome then .loops
  else match f.dot with
  | some file => .dot file (dotScope f)
  | none =>
  match f.find with
  | some p => .find p
  | none =>
  match f.findRegex with
  | some p => .findRegex p
  | none =>
  match f.fanOut with
  | some n => .fanOut n
  | none =>
  match f.fanIn with
  | some n => .fanIn n
  | none =>
  match f.sensitivity with
  | some n => .sensitivity n
  | none =>
  match f.constants with
  | some n => .constants n
  | none =>
  match f.drivers with
  | some n => .drivers n
  | none =>
  match f.start, f.stop with
  | some a, some b => .path a b
  | _, _ => .noAction

/-- Aliasing then dispatch (tools/driver/driver.cpp:775-1051). -/
def chooseAction (f : Flags) : Action := dispatch (aliasEndpoints f)

/-- Why a query ends without a report: a reported error (exception, exit status 1), or undefined
behaviour (tools/driver/driver.cpp:1053-1056). -/
inductive CliErr where
  | message
  | undefined
deriving DecidableEq

/-- `FileTable::getFilename` and `TextLocation::toString`
(include/netlist/TextLocation.hpp:54-59, 88-94). An index outside the table throws. -/
def locText (files : List Str) (loc : TextLoc) : Except CliErr Str :=
  if loc.file = noFile then .ok (lit "?")
  else
    match files[loc.file]? with
    | some f => .ok (f ++ lit ":" ++ decNat loc.line ++ lit ":" ++ decNat loc.col)
    | none => .error .message

/-- `getLocation` and its overrides (include/netlist/NetlistNode.hpp:63-65, 103-105, 133-135,
163-165, 179-181, 195-197, 211-213, 241-243). -/
def NodeData.loc : NodeData → Option TextLoc
  | .bare => none
  | .port _ _ l _ _ => some l
  | .variable _ _ l _ => some l
  | .state _ _ l _ => some l
  | .assignment l => some l
  | .conditional l => some l
  | .case l => some l
  | .merge => none
  | .constant _ _ l => some l

/-- `loc ? loc->toString(graph.fileTable) : std::string()`
(tools/driver/driver.cpp:880-881, 903-904, 927-928, 965-966, 987-988, 1011). -/
def optLocText (files : List Str) : Option TextLoc → Except CliErr Str
  | some l => locText files l
  | none => .ok []

/-- `passesFilters` as used by the reports; the matcher never faults (see the glob properties), so a
fault is reported as undefined (tools/driver/driver.cpp:471-491). -/
def cliPasses (scopes names : List Str) (path : Str) : Except CliErr Bool :=
  match passesFilters scopes names path with
  | .ok b => .ok b
  | .error _ => .error .undefined

/-- One row per listed node: those with a path that passes the filters
(tools/driver/driver.cpp:898-906, 922-930). -/
def coneRows (net : NetGraph) (files scopes names : List Str) :
    List Nat → Except CliErr (List (List Str))
  | [] => .ok []
  | n :: ns =>
    match (net.data n).path with
    | none => coneRows net files scopes names ns
    | some p => do
      if ← cliPasses scopes names p then
        let l ← optLocText files (net.data n).loc
        return [p, l] :: (← coneRows net files scopes names ns)
      else coneRows net files scopes names ns

/-- One row per register that passes the filters (tools/driver/driver.cpp:785-792). `as<State>()`
on a node of kind `State` is always that class in the model. -/
def registerRows (net : NetGraph) (files scopes names : List Str) :
    List Nat → Except CliErr (List (List Str))
  | [] => .ok []
  | n :: ns =>
    match net.data n with
    | .state _ p loc _ => do
      if ← cliPasses scopes names p then
        let l ← locText files loc
        return [p, l] :: (← registerRows net files scopes names ns)
      else registerRows net files scopes names ns
    | _ => registerRows net files scopes names ns

/-- `describeDriver` (tools/driver/driver.cpp:534-559). -/
def describeDriver : NodeData → Str
  | .port _ p _ dir _ =>
    (match dir with
      | .input => lit "input"
      | .output => lit "output"
      | _ => lit "inout") ++ lit " port " ++ p
  | .variable _ p _ _ => lit "variable " ++ p
  | .state _ p _ _ => lit "register " ++ p
  | .constant v _ _ => lit "constant " ++ v
  | .assignment _ => lit "assignment"
  | .conditional _ => lit "conditional"
  | .case _ => lit "case"
  | .merge => lit "merge"
  | .bare => lit "unknown"

/-- Rows of the driver report (tools/driver/driver.cpp:1007-1012). -/
def driverRows (net : NetGraph) (files : List Str) :
    List BitDriver → Except CliErr (List (List Str))
  | [] => .ok []
  | d :: ds => do
    let l ← optLocText files (net.data d.driver).loc
    return [rangeText d.bounds, describeDriver (net.data d.driver), l] :: (← driverRows net files ds)

/-- Rows of the constant-driver report (tools/driver/driver.cpp:983-989). `as<Constant>()` on
another kind fails an assertion. -/
def constantRows (net : NetGraph) (files : List Str) : List Nat → Except CliErr (List (List Str))
  | [] => .ok []
  | n :: ns =>
    match net.data n with
    | .constant v _ loc => do
      let l ← locText files loc
      return [v, l] :: (← constantRows net files ns)
    | _ => .error .undefined

/-- `reportNodeText` (tools/driver/driver.cpp:112-150). A port that is neither input nor output
reaches the unreachable branch of line 123. -/
def reportNodeText (files : List Str) : NodeData → Except CliErr Str
  | .port name _ loc dir _ => do
    let l ← locText files loc
    match dir with
    | .input => return l ++ lit ": note: input port " ++ name ++ lit "\n"
    | .output => return l ++ lit ": note: output port " ++ name ++ lit "\n"
    | _ => .error .undefined
  | .assignment loc => do return (← locText files loc) ++ lit ": note: assignment\n"
  | .conditional loc => do return (← locText files loc) ++ lit ": note: conditional statement\n"
  | .case loc => do return (← locText files loc) ++ lit ": note: case statement\n"
  | _ => .ok []

/-- `reportEdgeText` (tools/driver/driver.cpp:152-159). -/
def reportEdgeText (files : List Str) (a : EdgeAttr) : Except CliErr Str :=
  match a.symbol with
  | some s =>
    if s.name.isEmpty then .ok []
    else do
      return (← locText files s.loc) ++ lit ": note: value " ++ s.path ++ rangeText a.bounds ++ lit "\n"
  | none => .ok []

/-- `reportPath` in text mode (tools/driver/driver.cpp:195-206). For an empty path the bound
`path.size() - 1` wraps and the loop reads outside the vector: undefined. An edge that does not
exist is a dereference of the end iterator: undefined. -/
def reportPath (net : NetGraph) (files : List Str) : List Nat → Except CliErr Str
  | [] => .error .undefined
  | [n] => reportNodeText files (net.data n)
  | a :: b :: rest =>
    match net.g.findEdgeTo a b with
    | none => .error .undefined
    | some e => do
      let t ← reportNodeText files (net.data a)
      let u ← reportEdgeText files (net.attr e.id)
      return t ++ u ++ (← reportPath net files (b :: rest))

/-- One report per loop (tools/driver/driver.cpp:806-810). -/
def reportLoops (net : NetGraph) (files : List Str) : List (List Nat) → Except CliErr (List Str)
  | [] => .ok []
  | c :: cs => do
    let t ← reportPath net files c
    return t :: (← reportLoops net files cs)

/-- What the tool emits: a table with header, the loop reports, a DOT text for a file, or a path
(tools/driver/driver.cpp:794, 803-811, 861, 1040). -/
inductive Report where
  | table (header : List Str) (rows : List (List Str))
  | loops (texts : List Str)
  | dot (file : Str) (text : Str)
  | path (text : Str)
deriving DecidableEq

/-- `graph.lookup(name)` or an error (tools/driver/driver.cpp:820-827, 890-894, 914-918, 975-979,
1020-1029). -/
def requireNode (s : Session) (name : Str) : Except CliErr Nat :=
  match s.lookup name with
  | some n => .ok n
  | none => .error .message

/-- `pathFinder.find` with the error for an empty result (tools/driver/driver.cpp:847-852,
1035-1047). A fault in path building is undefined. -/
def requirePath (net : NetGraph) (a b : Nat) : Except CliErr (List Nat) :=
  match findPath net a b with
  | none => .error .undefined
  | some [] => .error .message
  | some p => .ok p

/-- The nodes a DOT report is restricted to (tools/driver/driver.cpp:830-860). The set is a list. -/
def scopeNodes (s : Session) : DotScope → Except CliErr (Option (List Nat))
  | .all => .ok none
  | .fanOut n => do
    let n ← requireNode s n
    return some (n :: combFanOut s.net n)
  | .fanIn n => do
    let n ← requireNode s n
    return some (n :: combFanIn s.net n)
  | .path a b => do
    let a ← requireNode s a
    let b ← requireNode s b
    return some (← requirePath s.net a b)

/-- The table header of the node-listing reports (tools/driver/driver.cpp:782, 871, 896, 920). -/
def nameHeader : List Str := [lit "Name", lit "Location"]

/-- The glob used by `findNodes` (source/NetlistGraph.cpp:258-269): C strings on both sides. -/
def globName (pattern name : Str) : Bool :=
  match glob (cstr name) (cstr pattern) with
  | .ok b => b
  | .error _ => false

/-- Rows of the `--find` reports (tools/driver/driver.cpp:873-882). -/
def findRows (net : NetGraph) (files scopes names : List Str) :
    List Nat → Except CliErr (List (List Str))
  | [] => .ok []
  | n :: ns => do
    if ← cliPasses scopes names ((net.data n).path.getD []) then
      let l ← optLocText files (net.data n).loc
      return [(net.data n).path.getD (lit "(unnamed)"), l] :: (← findRows net files scopes names ns)
    else findRows net files scopes names ns

/-- `ast::toString(EdgeKind)` prints the enumerator (used at tools/driver/driver.cpp:964). -/
def EdgeKind.text : EdgeKind → Str
  | .none => lit "None"
  | .posEdge => lit "PosEdge"
  | .negEdge => lit "NegEdge"
  | .bothEdges => lit "BothEdges"

/-- Aggregation of sensitivities over the matching nodes, without duplicates
(tools/driver/driver.cpp:946-954). -/
def addNewSources : List (Nat × EdgeKind) → List (Nat × EdgeKind) → List (Nat × EdgeKind)
  | acc, [] => acc
  | acc, s :: ss => addNewSources (if s ∈ acc then acc else acc ++ [s]) ss

/-- The loop over the matching nodes (tools/driver/driver.cpp:947-954). -/
def aggregateSources (net : NetGraph) :
    List (Nat × EdgeKind) → List Nat → List (Nat × EdgeKind)
  | acc, [] => acc
  | acc, n :: ns => aggregateSources net (addNewSources acc (sensitivity net n)) ns

/-- Rows of the sensitivity report (tools/driver/driver.cpp:957-967). -/
def sensRows (net : NetGraph) (files scopes names : List Str) :
    List (Nat × EdgeKind) → Except CliErr (List (List Str))
  | [] => .ok []
  | (n, k) :: ns => do
    if ← cliPasses scopes names ((net.data n).path.getD []) then
      let l ← optLocText files (net.data n).loc
      return [(net.data n).path.getD (lit "(unnamed)"), k.text, l] ::
        (← sensRows net files scopes names ns)
    else sensRows net files scopes names ns

/-- Running the chosen report (tools/driver/driver.cpp:781-1051). The row order of the `--find`,
`--find-regex` and `--sensitivity` reports depends on hash iteration in the code and on bucket
creation order here, so claims about them are up to order. `regex` stands for `std::regex_match`
on the given pattern. -/
def runAction (regex : Str → Str → Bool) (s : Session) (files scopes names : List Str) :
    Action → Except CliErr Report
  | .registers => do
    return .table nameHeader (← registerRows s.net files scopes names s.net.g.nodes)
  | .loops => do return .loops (← reportLoops s.net files (combLoops s.net))
  | .dot file scope => do
    let f ← scopeNodes s scope
    match renderDot s.net f with
    | some t => return .dot file t
    | none => .error .undefined
  | .fanOut name => do
    let n ← requireNode s name
    return .table nameHeader (← coneRows s.net files scopes names (combFanOut s.net n))
  | .fanIn name => do
    let n ← requireNode s name
    return .table nameHeader (← coneRows s.net files scopes names (combFanIn s.net n))
  | .constants name => do
    let n ← requireNode s name
    return .table [lit "Value", lit "Location"]
      (← constantRows s.net files (constantDrivers s.net n))
  | .drivers spec =>
    match parseNameAndRange spec with
    | .error _ => .error .undefined
    | .ok (path, range) => do
      let _ ← requireNode s path
      let ds := match range with
        | some r => getBitDrivers s.net path r
        | none => getBitDriversAll s.net path
      return .table [lit "Bits", lit "Driver", lit "Location"] (← driverRows s.net files ds)
  | .path a b => do
    let a ← requireNode s a
    let b ← requireNode s b
    let p ← requirePath s.net a b
    return .path (← reportPath s.net files p)
  | .noAction => .error .message
  | .find pattern => do
    return .table nameHeader
      (← findRows s.net files scopes names (s.findNodes (globName pattern)))
  | .findRegex pattern => do
    return .table nameHeader
      (← findRows s.net files scopes names (s.findNodes (regex pattern)))
  | .sensitivity name =>
    match s.findNodes (globName name) with
    | [] => .error .message
    | n :: ns => do
      return .table [lit "Name", lit "Edge", lit "Location"]
        (← sensRows s.net files scopes names (aggregateSources s.net [] (n :: ns)))

end Verif.Model

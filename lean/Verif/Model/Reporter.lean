import Verif.Model.Cli
import Verif.Model.Serial
import Verif.Model.Table

/-!
The companion tool `slang-report`: tools/report/report.cpp and include/report/*. The symbol tree, its
hierarchical paths, the location texts, slang's name lookup and the drivers found by slang's analysis
are inputs.
-/
namespace Verif.Model

/-- A driver of a value as it is reported (`DriverInfo`, include/report/ReportDrivers.hpp:14-19). The
printed path of the driver (32-36) and the text of its location (58) are inputs. -/
structure DriverFact where
  prefix_ : Str
  proc : Bool
  bounds : BitRange
  loc : Str

/-- What the report visitors ask of a declaration: the members read at
include/report/ReportPorts.hpp:66-72, include/report/ReportVariables.hpp:30-37, 73-77 and
include/report/ReportDrivers.hpp:95-104. `net` of a port is the name of the net type if the internal
symbol is a net (ReportPorts.hpp:23-30). `value` is any other value symbol, such as a parameter.
Ports of unknown kind, multi-ports and interface ports are `other`. -/
inductive DeclKind where
  | port (dir : ArgDir) (width : Nat) (net : Option Str)
  | var (type : Str) (width : Nat) (drivers : List DriverFact)
  | net (netType type : Str) (width : Nat) (drivers : List DriverFact)
  | value (drivers : List DriverFact)
  | other

/-- A symbol without its members. `id` stands for the address that
tools/report/report.cpp:62, 196 use as identity; `path` is `getHierarchicalPath()`, `loc` the printed
location (include/report/ReportVisitorBase.hpp:40-42). -/
structure Head where
  id : Nat
  path : Str
  loc : Str
  kind : DeclKind

/-- The symbol tree (tools/report/report.cpp:55-74). A `scope` is any scope that is not an instance.
An instance has its own body, whose `Uninstantiated` flag is `uninst`, and possibly a canonical body, the
body of another instance that slang elaborated in its place. -/
inductive SymTree where
  | leaf (h : Head)
  | scope (h : Head) (members : List SymTree)
  | inst (h : Head) (uninst : Bool) (body : List SymTree) (canon : Option (List SymTree))

/-- The symbol itself (tools/report/report.cpp:58-64). -/
def SymTree.head : SymTree → Head
  | .leaf h => h
  | .scope h _ => h
  | .inst h _ _ _ => h

/-- Members of a symbol itself (`scope.members()`, `inst->body`;
tools/report/report.cpp:58, 66-72). -/
def SymTree.kids : SymTree → List SymTree
  | .leaf _ => []
  | .scope _ ms => ms
  | .inst _ _ body _ => body

/-- `hasGlobChar` (tools/report/report.cpp:47-50). -/
def hasGlobChar : Str → Bool
  | [] => false
  | '*' :: _ => true
  | '?' :: _ => true
  | '.' :: '.' :: '.' :: _ => true
  | _ :: r => hasGlobChar r

/-- The test and insertion for one member (tools/report/report.cpp:59-65). The state is the set of
seen symbols and the output list. -/
def globTake (pattern : Str) (t : SymTree) (s : List Nat × List SymTree) : List Nat × List SymTree :=
  if t.head.path ≠ [] ∧ globName pattern t.head.path = true ∧ t.head.id ∉ s.1 then
    (t.head.id :: s.1, s.2 ++ [t])
  else s

mutual
/-- One round of the loop in `collectGlobMatches` (tools/report/report.cpp:58-73). -/
def collectGlob (pattern : Str) : SymTree → List Nat × List SymTree → List Nat × List SymTree
  | .leaf h, s => globTake pattern (.leaf h) s
  | .scope h ms, s => collectGlobs pattern ms (globTake pattern (.scope h ms) s)
  | .inst h u body c, s =>
    let s1 := globTake pattern (.inst h u body c) s
    if u then s1 else collectGlobs pattern body s1

/-- `collectGlobMatches` (tools/report/report.cpp:55-74). -/
def collectGlobs (pattern : Str) : List SymTree → List Nat × List SymTree → List Nat × List SymTree
  | [], s => s
  | t :: ts, s => collectGlobs pattern ts (collectGlob pattern t s)
end

/-- Errors reported by the tool (tools/report/report.cpp:187-188, 193-194, 224-227, 282-284). -/
inductive RptErr where
  | unmatched (scope : Str)
  | missing (scope : Str)
  | format (f : Str)
  | noAction

/-- Resolution of one `--scope` argument (tools/report/report.cpp:181-200). `lookup` is slang's
`lookupName` on the root. -/
def resolveScope (root : SymTree) (lookup : Str → Option SymTree) (name : Str)
    (s : List Nat × List SymTree) : Except RptErr (List Nat × List SymTree) :=
  if hasGlobChar name then
    let s1 := collectGlobs name root.kids s
    if s1.2.length = s.2.length then .error (.unmatched name) else .ok s1
  else
    match lookup name with
    | none => .error (.missing name)
    | some t => if t.head.id ∈ s.1 then .ok s else .ok (t.head.id :: s.1, s.2 ++ [t])

/-- Resolution of all `--scope` arguments in order (tools/report/report.cpp:178-200). -/
def resolveScopes (root : SymTree) (lookup : Str → Option SymTree) :
    List Str → List Nat × List SymTree → Except RptErr (List Nat × List SymTree)
  | [], s => .ok s
  | n :: ns, s =>
    match resolveScope root lookup n s with
    | .error e => .error e
    | .ok s1 => resolveScopes root lookup ns s1

/-- The three tabular reports (tools/report/report.cpp:260-280). -/
inductive RptAct where
  | ports
  | variables
  | drivers
deriving DecidableEq

/-- For which symbols the visitor of a report has a `handle` (include/report/ReportPorts.hpp:61,
include/report/ReportVariables.hpp:73-75, include/report/ReportDrivers.hpp:90). -/
def handles : RptAct → DeclKind → Bool
  | .ports, .port .. => true
  | .variables, .var .. => true
  | .variables, .net .. => true
  | .drivers, .var .. => true
  | .drivers, .net .. => true
  | .drivers, .value .. => true
  | _, _ => false

/-- `nameMatches` (include/report/ReportVisitorBase.hpp:46-57). -/
def nameMatches (filters : List Str) (path : Str) : Bool :=
  if filters = [] then true else filters.any fun p => globName p path

/-- The body of the `handle` methods: record the symbol if its path passes the filters
(include/report/ReportPorts.hpp:61-73, include/report/ReportVariables.hpp:25-38,
include/report/ReportDrivers.hpp:90-107). The recorded item is kept as the symbol; the members of the
`Info` structures are read off it when it is printed. -/
def recordItem (filters : List Str) (h : Head) : List Head :=
  if nameMatches filters h.path then [h] else []

mutual
/-- A visitor of a report visiting one symbol: a symbol with a `handle` is recorded and not entered,
every other one is entered (include/report/ReportVisitorBase.hpp:30-33). With
`VisitFlags::Canonical`, slang's visitor is taken to enter the canonical body of an instance if one is
set, and its own body otherwise. -/
def visitSym (a : RptAct) (filters : List Str) : SymTree → List Head
  | .leaf h => if handles a h.kind then recordItem filters h else []
  | .scope h ms => if handles a h.kind then recordItem filters h else visitSyms a filters ms
  | .inst h _ body none => if handles a h.kind then recordItem filters h else visitSyms a filters body
  | .inst h _ _ (some c) => if handles a h.kind then recordItem filters h else visitSyms a filters c

/-- The members of a scope in order (include/report/ReportVisitorBase.hpp:30-33). -/
def visitSyms (a : RptAct) (filters : List Str) : List SymTree → List Head
  | [] => []
  | t :: ts => visitSym a filters t ++ visitSyms a filters ts
end

/-- The items a report collects: from the root, or from each resolved scope
(tools/report/report.cpp:239-247). -/
def reportItems (a : RptAct) (filters : List Str) (root : SymTree) (scopes : List SymTree) :
    List Head :=
  if scopes = [] then visitSym a filters root else visitSyms a filters scopes

/-- `portNetTypeName` (include/report/ReportPorts.hpp:23-30). -/
def portNetTypeName (net : Option Str) : Str := net.getD (lit "var")

/-- `driverKindStr` (include/report/ReportDrivers.hpp:38-40). -/
def driverKindStr (proc : Bool) : Str := if proc then lit "proc" else lit "cont"

/-- `tableHeader` of the reports (include/report/ReportPorts.hpp:35-37,
include/report/ReportVariables.hpp:45-47, include/report/ReportDrivers.hpp:47-49). -/
def rptHeader : RptAct → List Str
  | .ports => [lit "Direction", lit "Name", lit "Width", lit "Net Type", lit "Location"]
  | .variables => [lit "Name", lit "Type", lit "Width", lit "Kind", lit "Drivers", lit "Location"]
  | .drivers => [lit "Value", lit "Range", lit "Driver", lit "Type", lit "Location"]

/-- The drivers recorded for a value (include/report/ReportDrivers.hpp:98-104). -/
def DeclKind.drivers : DeclKind → List DriverFact
  | .var _ _ ds => ds
  | .net _ _ _ ds => ds
  | .value ds => ds
  | _ => []

/-- The row of one driver (include/report/ReportDrivers.hpp:56-59). -/
def driverRow (d : DriverFact) : List Str :=
  [lit "↳", rangeText d.bounds, d.prefix_, driverKindStr d.proc, d.loc]

/-- `appendItemRows` (include/report/ReportPorts.hpp:39-44, include/report/ReportVariables.hpp:49-54,
include/report/ReportDrivers.hpp:51-61). Only recorded symbols occur, so the last case does not. -/
def itemRows (a : RptAct) (h : Head) : List (List Str) :=
  match a, h.kind with
  | .ports, .port dir w net => [[dir.text, h.path, decNat w, portNetTypeName net, h.loc]]
  | .variables, .var ty w ds => [[h.path, ty, decNat w, lit "var", decNat ds.length, h.loc]]
  | .variables, .net nt ty w ds => [[h.path, ty, decNat w, nt, decNat ds.length, h.loc]]
  | .drivers, k => [h.path, [], [], [], h.loc] :: k.drivers.map driverRow
  | _, _ => []

/-- The JSON object of one driver (include/report/ReportDrivers.hpp:72-81). -/
def driverJson (d : DriverFact) : Json :=
  .obj [("range", .str (rangeText d.bounds)), ("driver", .str d.prefix_),
    ("kind", .str (driverKindStr d.proc)), ("location", .str d.loc)]

/-- `emitJsonItem` (include/report/ReportPorts.hpp:46-59, include/report/ReportVariables.hpp:56-71,
include/report/ReportDrivers.hpp:63-85). Only recorded symbols occur, so the last case does not. -/
def itemJson (a : RptAct) (h : Head) : Json :=
  match a, h.kind with
  | .ports, .port dir w net =>
    .obj [("name", .str h.path), ("direction", .str dir.text), ("width", .int w),
      ("netType", .str (portNetTypeName net)), ("location", .str h.loc)]
  | .variables, .var ty w ds =>
    .obj [("name", .str h.path), ("type", .str ty), ("width", .int w), ("kind", .str (lit "var")),
      ("drivers", .int ds.length), ("location", .str h.loc)]
  | .variables, .net nt ty w ds =>
    .obj [("name", .str h.path), ("type", .str ty), ("width", .int w), ("kind", .str nt),
      ("drivers", .int ds.length), ("location", .str h.loc)]
  | .drivers, k =>
    .obj [("value", .str h.path), ("location", .str h.loc), ("drivers", .arr (k.drivers.map driverJson))]
  | _, _ => .null

/-- The options of the tool (tools/report/report.cpp:91-137). An option that was given as
`--ports=false` has the value `some false`. -/
structure RptFlags where
  ports : Option Bool := none
  variables : Option Bool := none
  drivers : Option Bool := none
  astJson : Option Str := none
  format : Option Str := none
  scopes : List Str := []
  names : List Str := []
  output : Option Str := none

/-- What the tool writes: the dump of symbols, whose form is slang's, a table, or a JSON array
(tools/report/report.cpp:32-43, 248-257). -/
inductive RptText where
  | ast (syms : List SymTree)
  | table (text : Str)
  | json (v : Json)

/-- The form of the output (tools/report/report.cpp:216-229); `true` is JSON. -/
def rptFormat (format : Option Str) : Except RptErr Bool :=
  match format with
  | none => .ok false
  | some f => if f = lit "json" then .ok true else if f = lit "table" then .ok false else .error (.format f)

/-- A file name or `none` for the standard output: `-` names the standard output
(tools/report/report.cpp:207, 231-237; `OS::writeFile` is taken to treat `-` likewise). -/
def rptTarget (file : Option Str) : Option Str :=
  match file with
  | some f => if f = lit "-" then none else some f
  | none => none

/-- `emit` (tools/report/report.cpp:239-258) with `report` (include/report/ReportVisitorBase.hpp:72-88).
-/
def emitReport (root : SymTree) (f : RptFlags) (scopes : List SymTree) (json : Bool) (a : RptAct) :
    Option Str × RptText :=
  let items := reportItems a f.names root scopes
  (rptTarget f.output,
    if json then .json (.arr (items.map (itemJson a)))
    else .table (formatTable (rptHeader a) (items.flatMap (itemRows a)) 2))

/-- `main` after the sources were compiled without errors (tools/report/report.cpp:174-285). The
analysis run for two of the reports is taken to report no errors. -/
def reportMain (root : SymTree) (lookup : Str → Option SymTree) (f : RptFlags) :
    Except RptErr (Option Str × RptText) :=
  match resolveScopes root lookup f.scopes ([], []) with
  | .error e => .error e
  | .ok (_, scopes) =>
    match f.astJson with
    | some file => .ok (rptTarget (some file), .ast (if scopes = [] then [root] else scopes))
    | none =>
      match rptFormat f.format with
      | .error e => .error e
      | .ok json =>
        if f.ports.isSome then .ok (emitReport root f scopes json .ports)
        else if f.variables.isSome then .ok (emitReport root f scopes json .variables)
        else if f.drivers.isSome then .ok (emitReport root f scopes json .drivers)
        else .error .noAction

/-- The options of the tool (tools/report/report.cpp:84-137). Options of slang itself are left out. -/
structure RptOpts where
  help : Option Bool := none
  version : Option Bool := none
  flags : RptFlags := {}

/-- Everything outside the tool that a run depends on: whether slang accepts the command line, its
options, the sources, the elaborated design and its analysis (tools/report/report.cpp:139, 159, 163,
170, 268-271), the design, `lookupName`, and whether a file can be written (lines 207, 233). -/
structure RptWorld where
  cmdLine : Bool
  options : Bool
  sources : Bool
  elaborated : Bool
  analysed : Bool
  root : SymTree
  lookup : Str → Option SymTree
  canWrite : Str → Bool

/-- What a run writes apart from diagnostics and error messages (tools/report/report.cpp:144-147, 152-154,
207, 231-237). The target `none` is the standard output. -/
inductive RptOut where
  | help
  | version
  | report (target : Option Str) (text : RptText)

/-- A report is written to its target; a file that cannot be written raises an exception
(tools/report/report.cpp:207, 231-237, 286-289). -/
def rptWrite (w : RptWorld) (r : Option Str × RptText) : Nat × List RptOut :=
  match r.1 with
  | none => (0, [.report none r.2])
  | some f => if w.canWrite f then (0, [.report (some f) r.2]) else (1, [])

/-- `main` (tools/report/report.cpp:139-292): the exit status and what was written. Errors found by the
analysis, which runs for the reports on variables and on drivers only (lines 267-271), end the run
before the report is made; here the report is made first and dropped. -/
def reportRun (w : RptWorld) (o : RptOpts) : Nat × List RptOut :=
  if !w.cmdLine then (1, [])
  else if o.help = some true then (0, [.help])
  else if o.version = some true then (0, [.version])
  else if !w.options then (2, [])
  else if !w.sources then (1, [])
  else if !w.elaborated then (1, [])
  else
    match reportMain w.root w.lookup o.flags with
    | .error _ => (1, [])
    | .ok r =>
      if o.flags.astJson.isNone && o.flags.ports.isNone && !w.analysed then (1, []) else rptWrite w r

end Verif.Model

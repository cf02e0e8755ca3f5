import Verif.Model.Cli
import Verif.Model.Serial

/-!
The main function of the command-line tool around the queries of `Verif.Model.Cli`
(tools/driver/driver.cpp:389-466, 689-779, 1053-1059), and path reports in both modes
(tools/driver/driver.cpp:44-110, 164-207).
-/
namespace Verif.Model

/-- One diagnostic of a path report: where it points and what it says
(tools/driver/driver.cpp:59-110; include/netlist/NetlistDiagnostics.hpp:8-23). The location
stands for the `SourceLocation` beside the file, line and column; how slang renders the source line and
caret is not modelled. -/
structure DiagItem where
  loc : TextLoc
  text : Str
deriving DecidableEq

/-- `getNodeLocation` (tools/driver/driver.cpp:44-57): ports, assignments, conditionals and cases. -/
def NodeData.pathLoc : NodeData → Option TextLoc
  | .port _ _ l _ _ => some l
  | .assignment l => some l
  | .conditional l => some l
  | .case l => some l
  | _ => none

/-- `reportNodeDiag` (tools/driver/driver.cpp:59-101), with the messages of
include/netlist/NetlistDiagnostics.hpp:8-14. A port that is neither input nor output reaches the
unreachable branch of line 73. -/
def reportNodeDiag : NodeData → Except CliErr (List DiagItem)
  | .port name _ loc dir _ =>
    match dir with
    | .input => .ok [⟨loc, lit "input port " ++ name⟩]
    | .output => .ok [⟨loc, lit "output port " ++ name⟩]
    | _ => .error .undefined
  | .assignment loc => .ok [⟨loc, lit "assignment"⟩]
  | .conditional loc => .ok [⟨loc, lit "conditional statement"⟩]
  | .case loc => .ok [⟨loc, lit "case statement"⟩]
  | _ => .ok []

/-- `reportEdgeDiag` (tools/driver/driver.cpp:103-110). -/
def reportEdgeDiag (a : EdgeAttr) : List DiagItem :=
  match a.symbol with
  | some s =>
    if s.name.isEmpty then []
    else [⟨s.loc, lit "value " ++ (s.path ++ rangeText a.bounds)⟩]
  | none => []

/-- The diagnostic branch of `reportPath` (tools/driver/driver.cpp:179-193). As in the text branch an
empty path and a missing edge are undefined. -/
def reportPathDiag (net : NetGraph) : List Nat → Except CliErr (List DiagItem)
  | [] => .error .undefined
  | [n] => reportNodeDiag (net.data n)
  | a :: b :: rest =>
    match net.g.findEdgeTo a b with
    | none => .error .undefined
    | some e => do
      let t ← reportNodeDiag (net.data a)
      return t ++ reportEdgeDiag (net.attr e.id) ++ (← reportPathDiag net (b :: rest))

/-- The choice of the mode (tools/driver/driver.cpp:169-177): the first located node of the path
decides. `src n` says that the location of node `n` carries a `SourceLocation`. -/
def useDiag (net : NetGraph) (src : Nat → Bool) : List Nat → Bool
  | [] => false
  | n :: ns => if (net.data n).pathLoc.isSome then src n else useDiag net src ns

/-- What `reportPath` returns: text lines, or the string rendered from diagnostics
(tools/driver/driver.cpp:164-207). -/
inductive PathOut where
  | text (t : Str)
  | diags (ds : List DiagItem)
deriving DecidableEq

/-- `reportPath` (tools/driver/driver.cpp:164-207). `diag` is present when the diagnostics object was
created, that is for a netlist built from sources. -/
def reportPathIn (net : NetGraph) (files : List Str) (diag : Option (Nat → Bool)) (p : List Nat) :
    Except CliErr PathOut :=
  match diag with
  | none => (reportPath net files p).map .text
  | some src =>
    if useDiag net src p then (reportPathDiag net p).map .diags
    else (reportPath net files p).map .text

/-- What a run leaves behind (tools/driver/driver.cpp:393-405, 432-466, 757-758, 803-811, 861, 1040).
A table has its target (`none` for standard output) and whether it is written as JSON; its text is
modelled in `Verif.Model.Table`. Statistics and error messages are not modelled. -/
inductive Out where
  | help
  | version
  | table (file : Option Str) (json : Bool) (header : List Str) (rows : List (List Str))
  | noLoops
  | loopHead
  | loopPath (p : PathOut)
  | dot (file : Str) (text : Str)
  | path (p : PathOut)
  | saved (file : Str) (content : Json)

/-- The end of a run: its exit status, `none` for undefined behaviour, and what was emitted before
(tools/driver/driver.cpp:389-1059). -/
structure RunResult where
  code : Option Nat
  outs : List Out

/-- The options read by the main function and the query part (tools/driver/driver.cpp:218-344). Options
of slang itself are left out. -/
structure MainOpts where
  help : Option Bool := none
  version : Option Bool := none
  format : Option Str := none
  output : Option Str := none
  save : Option Str := none
  load : Option Str := none
  scopes : List Str := []
  names : List Str := []
  flags : Flags := {}

/-- Everything outside the tool that a run depends on: whether slang accepts the command line, its
options, the sources, the elaborated design and its analysis
(tools/driver/driver.cpp:389, 711, 716, 733, 740), what the build gives (line 750) and which of its
nodes have a `SourceLocation`, what a file contains (`none`: it cannot be read; `some none`: its text is
not JSON; lines 699-705), whether a file can be written (lines 434, 758, 861), how constants are read
back, and `std::regex_match`. -/
structure World where
  cmdLine : Bool
  options : Bool
  sources : Bool
  elaborated : Bool
  analysed : Bool
  build : Except CliErr (NetGraph × List Str)
  src : Nat → Bool
  read : Str → Option (Option Json)
  canWrite : Str → Bool
  codec : ConstCodec
  regex : Str → Str → Bool

/-- The exit status of a failed step (tools/driver/driver.cpp:1053-1056): an exception gives 1. -/
def errCode : CliErr → Option Nat
  | .message => some 1
  | .undefined => none

/-- How a failed load ends (tools/driver/driver.cpp:704-705, 1053-1056): exceptions give 1; a failed
assertion or an unrepresentable number is undefined. -/
def loadErrOf : LoadErr → CliErr
  | .ub => .undefined
  | .assertion => .undefined
  | _ => .message

/-- `--format` (tools/driver/driver.cpp:417-430): `none` for an unknown value, otherwise whether JSON
is asked for. -/
def formatOf : Option Str → Option Bool
  | none => some false
  | some f => if f = lit "json" then some true else if f = lit "table" then some false else none

/-- `*outputFile != "-"` (tools/driver/driver.cpp:433): the file that is written, if any. -/
def outputFileOf : Option Str → Option Str
  | none => none
  | some f => if f = lit "-" then none else some f

/-- `writeFile` throws when the file cannot be written (tools/driver/driver.cpp:434, 758, 861). -/
def writeOr (w : World) (file : Str) (o : Out) : RunResult :=
  if w.canWrite file then ⟨some 0, [o]⟩ else ⟨some 1, []⟩

/-- `emitTable` (tools/driver/driver.cpp:442-466) through `writeOutput` (tools/driver/driver.cpp:432-438). -/
def emitTable (w : World) (o : MainOpts) (json : Bool) (header : List Str) (rows : List (List Str)) :
    RunResult :=
  match outputFileOf o.output with
  | some f => writeOr w f (.table (some f) json header rows)
  | none => ⟨some 0, [.table none json header rows]⟩

/-- The loop over the detected loops (tools/driver/driver.cpp:806-811): a heading and then the
description of each, printed before the next is described. -/
def printLoops (net : NetGraph) (files : List Str) (diag : Option (Nat → Bool)) :
    List (List Nat) → RunResult
  | [] => ⟨some 0, []⟩
  | c :: cs =>
    match reportPathIn net files diag c with
    | .error e => ⟨errCode e, [.loopHead]⟩
    | .ok p =>
      let r := printLoops net files diag cs
      ⟨r.code, .loopHead :: .loopPath p :: r.outs⟩

/-- `--comb-loops` (tools/driver/driver.cpp:800-814). -/
def runLoops (net : NetGraph) (files : List Str) (diag : Option (Nat → Bool)) : RunResult :=
  match combLoops net with
  | [] => ⟨some 0, [.noLoops]⟩
  | c :: cs => printLoops net files diag (c :: cs)

/-- `--from` with `--to` (tools/driver/driver.cpp:1018-1048). -/
def runPath (s : Session) (files : List Str) (diag : Option (Nat → Bool)) (a b : Str) : RunResult :=
  match (do
    let a ← requireNode s a
    let b ← requireNode s b
    let p ← requirePath s.net a b
    reportPathIn s.net files diag p : Except CliErr PathOut) with
  | .error e => ⟨errCode e, []⟩
  | .ok p => ⟨some 0, [.path p]⟩

/-- Emitting the report made by `runAction` (tools/driver/driver.cpp:794, 861, 883, 907, 931, 968,
990, 1013). Loops and paths are handled before, by `runLoops` and `runPath`. -/
def emitMade (w : World) (o : MainOpts) (json : Bool) : Except CliErr Report → RunResult
  | .error e => ⟨errCode e, []⟩
  | .ok (.table h rows) => emitTable w o json h rows
  | .ok (.dot file t) => writeOr w file (.dot file t)
  | .ok (.loops ts) => ⟨some 0, ts.flatMap fun t => [.loopHead, .loopPath (.text t)]⟩
  | .ok (.path t) => ⟨some 0, [.path (.text t)]⟩

/-- The query part (tools/driver/driver.cpp:767-1051). -/
def runQuery (w : World) (o : MainOpts) (json : Bool) (diag : Option (Nat → Bool)) (net : NetGraph)
    (files : List Str) : RunResult :=
  match chooseAction o.flags with
  | .loops => runLoops net files diag
  | .path a b => runPath ⟨net, none⟩ files diag a b
  | act => emitMade w o json (runAction w.regex ⟨net, none⟩ files o.scopes o.names act)

/-- The netlist read from a file (tools/driver/driver.cpp:696-705). -/
def readNetlist (w : World) (file : Str) : Except CliErr (NetGraph × List Str) :=
  match w.read file with
  | none => .error .message
  | some none => .error .message
  | some (some j) =>
    match load w.codec j with
    | .error e => .error (loadErrOf e)
    | .ok st => .ok (st.net, st.files)

/-- The part inside the `try` block (tools/driver/driver.cpp:689-1056). -/
def runBody (w : World) (o : MainOpts) (json : Bool) : RunResult :=
  match o.load with
  | some file =>
    match readNetlist w file with
    | .error e => ⟨errCode e, []⟩
    | .ok (net, files) => runQuery w o json none net files
  | none =>
    if !w.options then ⟨some 2, []⟩
    else if !w.sources then ⟨some 1, []⟩
    else if !w.elaborated then ⟨some 1, []⟩
    else if !w.analysed then ⟨some 1, []⟩
    else
      match w.build with
      | .error e => ⟨errCode e, []⟩
      | .ok (net, files) =>
        match o.save with
        | some file => writeOr w file (.saved file (save net files))
        | none => runQuery w o json (some w.src) net files

/-- `main` (tools/driver/driver.cpp:389-1059). -/
def driverMain (w : World) (o : MainOpts) : RunResult :=
  if !w.cmdLine then ⟨some 1, []⟩
  else if o.help = some true then ⟨some 0, [.help]⟩
  else if o.version = some true then ⟨some 0, [.version]⟩
  else
    match formatOf o.format with
    | none => ⟨some 1, []⟩
    | some json => runBody w o json

end Verif.Model

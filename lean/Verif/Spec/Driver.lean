import Verif.Model.Driver

/-!
Specification of a run of the tool: which answer belongs to which options, and when two runs give the
same answer.
-/
namespace Verif.Spec
open Verif.Model

/-- A location as it is printed. -/
def placeText (files : List Str) (l : TextLoc) : Str :=
  if l.file = noFile then lit "?"
  else files.getD l.file [] ++ lit ":" ++ decNat l.line ++ lit ":" ++ decNat l.col

/-- The line for one diagnostic. -/
def diagLine (files : List Str) (d : DiagItem) : Str :=
  placeText files d.loc ++ lit ": note: " ++ d.text ++ lit "\n"

/-- What a path report says: its lines, or one line for each diagnostic. -/
def said (files : List Str) : PathOut → Str
  | .text t => t
  | .diags ds => ds.flatMap (diagLine files)

/-- The same output: tables may differ in the order of rows, and a path may be told as text or by
diagnostics. -/
def SameOut (files : List Str) : Out → Out → Prop
  | .table f j h rows, .table f' j' h' rows' => f = f' ∧ j = j' ∧ h = h' ∧ rows.Perm rows'
  | .loopPath p, .loopPath q => said files p = said files q
  | .path p, .path q => said files p = said files q
  | a, b => a = b

/-- The same outputs one after the other. -/
def SameOuts (files : List Str) : List Out → List Out → Prop
  | [], [] => True
  | a :: as, b :: bs => SameOut files a b ∧ SameOuts files as bs
  | _, _ => False

/-- Two runs with the same exit status and the same outputs. -/
def SameRun (files : List Str) (r r' : RunResult) : Prop := r.code = r'.code ∧ SameOuts files r.outs r'.outs

/-- Headings and descriptions of loops in turn. -/
def LoopOuts : List Out → Prop
  | [] => True
  | .loopHead :: .loopPath _ :: rest => LoopOuts rest
  | _ => False

/-- One of the reports that are tables is asked for. A lone endpoint asks for a fan. -/
def AsksTable (f : Flags) : Prop :=
  f.registers ≠ none ∨ f.loops = none ∧ f.dot = none ∧
    (f.find ≠ none ∨ f.findRegex ≠ none ∨ f.fanOut ≠ none ∨ f.fanIn ≠ none ∨ f.sensitivity ≠ none ∨
      f.constants ≠ none ∨ f.drivers ≠ none ∨ (f.start ≠ none ∧ f.stop = none) ∨ (f.start = none ∧ f.stop ≠ none))

/-- The file a table goes to: none without `--output` and for `-`. -/
def tableTarget : Option Str → Option Str
  | none => none
  | some f => if f = ['-'] then none else some f

/-- The answer that belongs to the options of a query. -/
inductive Answers (o : MainOpts) : List Out → Prop
  | table (h : List Str) (rows : List (List Str)) : AsksTable o.flags →
      Answers o [.table (tableTarget o.output) (decide (o.format = some (lit "json"))) h rows]
  | noLoops : o.flags.registers = none → o.flags.loops ≠ none → Answers o [.noLoops]
  | loops (outs : List Out) : o.flags.registers = none → o.flags.loops ≠ none → outs ≠ [] → LoopOuts outs →
      Answers o outs
  | dot (file text : Str) : o.flags.registers = none → o.flags.loops = none → o.flags.dot = some file →
      Answers o [.dot file text]
  | path (p : PathOut) : ¬ AsksTable o.flags → o.flags.loops = none → o.flags.dot = none →
      o.flags.start ≠ none → o.flags.stop ≠ none → Answers o [.path p]

/-- The run goes past the handling of `--help`, `--version` and `--format`. -/
def Proceeds (w : World) (o : MainOpts) : Prop :=
  w.cmdLine = true ∧ o.help ≠ some true ∧ o.version ≠ some true ∧
    (o.format = none ∨ o.format = some (lit "json") ∨ o.format = some (lit "table"))

/-- slang accepts everything it is given. -/
def Compiles (w : World) : Prop := w.options = true ∧ w.sources = true ∧ w.elaborated = true ∧ w.analysed = true

/-- A node of a kind that path reports show with a place in the text. -/
def Placed : NodeData → Prop
  | .port .. | .assignment _ | .conditional _ | .case _ => True
  | _ => False

/-- The content of the file cannot be taken as a netlist. -/
def Unloadable (w : World) (file : Str) : Prop :=
  w.read file = none ∨ w.read file = some none ∨
    ∃ j e, w.read file = some (some j) ∧ load w.codec j = .error e ∧ e ≠ .ub ∧ e ≠ .assertion

/-- Loop output that was cut short: a heading without a description may come last. -/
def LoopPart : List Out → Prop
  | [] => True
  | [.loopHead] => True
  | .loopHead :: .loopPath _ :: rest => LoopPart rest
  | _ => False

end Verif.Spec

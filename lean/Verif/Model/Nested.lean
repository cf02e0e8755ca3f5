import Verif.Model.Dataflow

/-!
Assignments inside expressions in the data flow analysis: `a = (b = c) + d`, and the arguments of calls for output
formals, which slang represents as assignments too (`isLValueArg`, source/DataFlowAnalysis.cpp:246).

The handler of an assignment is entered again for the inner one while the outer one is being handled. What it changes
are members of the analysis: `getState().node` and `getState().condition` (`updateNode`) and `isBlocking`. The model keeps
`isBlocking` as a second component of the state. The order in which slang visits the parts of an expression is not part
of the repository; an expression is given as the sequence of uses and inner assignments in the order of the visit.
-/
namespace Verif.Model

/-- What is visited, in order. `note` is a use; `src` a source of a segment other than an opaque expression; `asg` an
assignment handled by visiting its sides, with what is visited in them (`handleAssignmentLegacy`,
source/DataFlowAnalysis.cpp:227-249); `aligned` an assignment handled segment by segment, with its segments
(source/DataFlowAnalysis.cpp:282-343); `seg` such a segment, with its left-hand signals and what is visited for the
right-hand side. Simplified: `prohibitLValue` (`force` and the like) is left out. -/
inductive EVis where
  | done
  | note (x : Note) (rest : EVis)
  | src (x : RSrc) (rest : EVis)
  | asg (loc : TextLoc) (blocking : Bool) (body rest : EVis)
  | aligned (blocking : Bool) (segs rest : EVis)
  | seg (loc : TextLoc) (lhs : List Ref) (body rest : EVis)
deriving DecidableEq, Repr

/-- The visit (source/DataFlowAnalysis.cpp:154-194, 227-349). `node` and `cond` are `savedNode` and `savedCondition` of
the innermost assignment handled by segments (lines 280-281), `blk` is `isBlocking`; the result is the state and
`isBlocking` after the visit. -/
def Dfa.visitE (c : DfaCtx) (node cond : Option Nat) (s : Dfa) (blk : Bool) : EVis → Except Fault (Dfa × Bool)
  | .done => .ok (s, blk)
  | .note x rest =>
    match s.noteRef c blk x with
    | .error f => .error f
    | .ok s1 => s1.visitE c node cond blk rest
  | .src x rest =>
    match s.segSrc c blk x with
    | .error f => .error f
    | .ok s1 => s1.visitE c node cond blk rest
  | .asg loc b body rest =>
    match s.startAssign loc with
    | .error f => .error f
    | .ok s1 =>
      match s1.visitE c node cond b body with
      | .error f => .error f
      | .ok (s2, blk2) => s2.visitE c node cond blk2 rest
  | .aligned b segs rest =>
    match s.visitE c s.cur.node s.cur.cond b segs with
    | .error f => .error f
    | .ok (s1, blk1) => s1.visitE c node cond blk1 rest
  | .seg loc lhs body rest =>
    let s0 : Dfa := { s with cur := { s.cur with node := node, cond := cond } }
    match s0.startAssign loc with
    | .error f => .error f
    | .ok s1 =>
      match s1.segLhs blk lhs with
      | .error f => .error f
      | .ok s2 =>
        match s2.visitE c node cond blk body with
        | .error f => .error f
        | .ok (s3, blk3) => s3.visitE c node cond blk3 rest

/-- Statements with expressions that contain assignments (source/DataFlowAnalysis.cpp:227-372, 422-463; as
`Verif.Model.Stmt`, with one more case). An assignment statement is the `expr` that consists of the assignment; the
condition of an `if` is an `expr` after the `branch`, as the node is created before the condition is visited (lines
361-363). -/
inductive NStmt where
  | plain (s : Stmt)
  | expr (v : EVis)
  | seq (s t : NStmt)
  | choose (intoFirst : Bool) (s t : NStmt)
deriving DecidableEq, Repr

/-- The visit of a statement (source/DataFlowAnalysis.cpp:227-372, 422-463; as `Verif.Model.Dfa.exec`). Simplified:
`isBlocking` is not passed from one statement to the next. It is read only for written signals, and these are parts of an
assignment, which sets it first. -/
def Dfa.execN (c : DfaCtx) (s : Dfa) : NStmt → Except Fault Dfa
  | .plain st => s.exec c st
  | .expr v =>
    match s.visitE c none none true v with
    | .error f => .error f
    | .ok (s1, _) => .ok s1
  | .seq a b =>
    match s.execN c a with
    | .error f => .error f
    | .ok s1 => s1.execN c b
  | .choose intoFirst a b =>
    match s.execN c a with
    | .error f => .error f
    | .ok s1 =>
      match ({ s1 with cur := s.cur } : Dfa).execN c b with
      | .error f => .error f
      | .ok s2 =>
        if intoFirst then ({ s2 with cur := s1.cur } : Dfa).joinState s2.cur
        else s2.joinState s1.cur

/-- The analysis of a procedural block (source/NetlistBuilder.cpp:542-544). -/
def Dfa.runN (c : DfaCtx) (s : Dfa) (st : NStmt) : Except Fault Dfa :=
  match s.execN c st with
  | .error f => .error f
  | .ok s1 => s1.processNba s1.nba

end Verif.Model

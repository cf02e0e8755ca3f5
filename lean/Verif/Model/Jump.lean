import Verif.Model.Dataflow

/-!
Statements with jumps (`break`, `continue`, `return`) in the data flow analysis.

As for the other statements, slang's `AbstractFlowAnalysis` decides the order, and is not part of the repository. At a
jump it keeps the current state for the place the jump leads to and goes on with `unreachableState`; at this place it
joins the states that were kept into the one that arrives there without a jump. Only these services of
`source/DataFlowAnalysis.cpp` are the project's; that slang uses them in this way is an assumption of the model.
-/
namespace Verif.Model

/-- Statements with jumps. `scope` is a statement that jumps can leave: the body of a loop for `continue`, a loop for
`break`, the body of a subroutine for `return`. `jump k` leaves `k + 1` of the scopes around it
(source/DataFlowAnalysis.cpp:422-430, 456-461 are the services used; see the head of the file). -/
inductive JStmt where
  | plain (s : Stmt)
  | jump (k : Nat)
  | seq (a b : JStmt)
  | choose (intoFirst : Bool) (a b : JStmt)
  | scope (a : JStmt)
deriving DecidableEq, Repr

/-- A loop unrolled into its iterations, in which `jump 0` is `continue` and `jump 1` is `break`
(source/DataFlowAnalysis.cpp:422-430, 456-461 are the services used; slang unrolls the loop). As in
`Verif.Model.staticLoop`, the state after the iterations is joined into the state before
(tests/unit/LoopTests.cpp:3-37). -/
def JStmt.loop (bodies : List JStmt) : JStmt :=
  .scope (.choose true (.plain .skip) (bodies.foldr (fun b rest => .seq (.scope b) rest) (.plain .skip)))

/-- Join several states into the current one, in order (source/DataFlowAnalysis.cpp:422-430). -/
def Dfa.joinAll (s : Dfa) : List Flow → Except Fault Dfa
  | [] => .ok s
  | f :: fs =>
    match s.joinState f with
    | .error e => .error e
    | .ok s' => s'.joinAll fs

/-- The visit of a statement with jumps (source/DataFlowAnalysis.cpp:422-461; see the head of the file). The second
result are the states kept at jumps, in order, by the number of further scopes to leave. -/
def Dfa.execJ (c : DfaCtx) (s : Dfa) : JStmt → Except Fault (Dfa × (Nat → List Flow))
  | .plain st =>
    match s.exec c st with
    | .error e => .error e
    | .ok s1 => .ok (s1, fun _ => [])
  | .jump k => .ok ({ s with cur := { reach := false } }, fun j => if j = k then [s.cur] else [])
  | .seq a b =>
    match s.execJ c a with
    | .error e => .error e
    | .ok (s1, l1) =>
      match s1.execJ c b with
      | .error e => .error e
      | .ok (s2, l2) => .ok (s2, fun k => l1 k ++ l2 k)
  | .choose intoFirst a b =>
    match s.execJ c a with
    | .error e => .error e
    | .ok (s1, l1) =>
      match ({ s1 with cur := s.cur } : Dfa).execJ c b with
      | .error e => .error e
      | .ok (s2, l2) =>
        match if intoFirst then ({ s2 with cur := s1.cur } : Dfa).joinState s2.cur else s2.joinState s1.cur with
        | .error e => .error e
        | .ok s3 => .ok (s3, fun k => l1 k ++ l2 k)
  | .scope a =>
    match s.execJ c a with
    | .error e => .error e
    | .ok (s1, l1) =>
      match s1.joinAll (l1 0) with
      | .error e => .error e
      | .ok s2 => .ok (s2, fun k => l1 (k + 1))

/-- The analysis of a procedural block with jumps: `run` and `finalize` (source/NetlistBuilder.cpp:542-544). States kept
at jumps that leave the whole block are dropped. -/
def Dfa.runJ (c : DfaCtx) (s : Dfa) (a : JStmt) : Except Fault Dfa :=
  match s.execJ c a with
  | .error e => .error e
  | .ok (s1, _) => s1.processNba s1.nba

end Verif.Model

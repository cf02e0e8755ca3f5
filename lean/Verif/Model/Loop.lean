import Verif.Model.Dataflow

/-!
Loops in the data flow analysis. The order of the visit is slang's, which is not part of the repository. What
the project says about it is that loops with constant bounds are unrolled (README.md:20-23) and that
others are not, so that assignments in their bodies are not tracked (tests/unit/LoopTests.cpp:76-95). The
netlists expected by tests/unit/LoopTests.cpp:21-37 show a merge of the state before an unrolled loop with the
state after its last iteration. Both kinds of loops are therefore made of the services of
`Verif.Model.Dataflow`; the results for the four designs of LoopTests.cpp are checked in
`Verif.Conform.Blocks` and `Verif.Conform.Dot`.
-/
namespace Verif.Model

/-- Statements one after the other (tests/unit/LoopTests.cpp:11-12, the iterations of an unrolled loop). -/
def inOrder : List Stmt → Stmt
  | [] => .skip
  | s :: ss => .seq s (inOrder ss)

/-- A loop with constant bounds, given by its iterations (tests/unit/LoopTests.cpp:3-37): the iterations are
visited in order, and the state after them is joined into the state before
(source/DataFlowAnalysis.cpp:422-430). -/
def staticLoop (its : List Stmt) : Stmt := .choose true .skip (inOrder its)

/-- Any other loop, given by the uses in its condition and its body (tests/unit/LoopTests.cpp:76-95): the body
is visited once, after the condition, and the state after it is dropped. Dropping it is the same as joining an
unreachable state (source/DataFlowAnalysis.cpp:422-430, 456-461). -/
def openLoop (cond : List Ref) (body : Stmt) : Stmt := .seq (.reads cond) (.choose true .skip (.seq body .dead))

end Verif.Model

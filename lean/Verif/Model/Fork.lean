import Verif.Model.Dataflow

/-!
Parallel blocks (`fork … join`) in the data flow analysis: `meetState` and `topState` of
`source/DataFlowAnalysis.cpp`.

As for the other statements, slang's `AbstractFlowAnalysis` decides the order, and is not part of the
repository. It visits every branch from a copy of the state before the block, and meets the states after the
branches, in order, into one that starts as `topState`. Branches are statements without parallel blocks.
-/
namespace Verif.Model

/-- `meetState` (source/DataFlowAnalysis.cpp:432-440), with the result as current state. -/
def Dfa.meetState (s : Dfa) (other : Flow) : Except Fault Dfa :=
  if !other.reach then .ok { s with cur := { s.cur with reach := false } }
  else s.mergeStates other

/-- The visits of the branches of a parallel block that started in the state `start`; the current state is
the meet of the branches visited so far (source/DataFlowAnalysis.cpp:432-454; see the head of the file). -/
def Dfa.forkFrom (c : DfaCtx) (start : Flow) (s : Dfa) : List Stmt → Except Fault Dfa
  | [] => .ok s
  | b :: bs =>
    match ({ s with cur := start } : Dfa).exec c b with
    | .error f => .error f
    | .ok s1 =>
      match ({ s1 with cur := s.cur } : Dfa).meetState s1.cur with
      | .error f => .error f
      | .ok s2 => s2.forkFrom c start bs

/-- The visit of a parallel block all of whose branches are waited for. It begins with `topState`
(source/DataFlowAnalysis.cpp:463), a reachable state without drivers. -/
def Dfa.fork (c : DfaCtx) (s : Dfa) (bs : List Stmt) : Except Fault Dfa :=
  ({ s with cur := {} } : Dfa).forkFrom c s.cur bs

/-- The analysis of a procedural block made of a statement and a parallel block after it: `run` and
`finalize` (source/NetlistBuilder.cpp:542-544). -/
def Dfa.runFork (c : DfaCtx) (s : Dfa) (st : Stmt) (bs : List Stmt) : Except Fault Dfa :=
  match s.exec c st with
  | .error f => .error f
  | .ok s1 =>
    match s1.fork c bs with
    | .error f => .error f
    | .ok s2 => s2.processNba s2.nba

end Verif.Model

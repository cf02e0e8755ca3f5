import Verif.Model.Dependency
import Verif.Model.ValueTracker
import Verif.Model.Cuts

/-!
Pending reads and their resolution: `source/PendingRValue.hpp` and `source/PendingRvalueQueue.cpp`.
-/
namespace Verif.Model

/-- `PendingRvalue` (source/PendingRValue.hpp:14-35). Symbols are numbers, nodes are node indices
with `none` for null. The `lsp` expression is not used in resolution and is left out. -/
structure Pending where
  sym : Nat
  bounds : BitRange
  node : Option Nat
  kind : EdgeKind := .none
deriving DecidableEq, Repr

/-- What resolution reads from the builder: the variable nodes, the driver maps, and the interned
record of each symbol (source/PendingRvalueQueue.cpp:69, 72, 85-86). They do not change during
resolution. -/
structure ResolveCtx where
  vars : VarTab
  trk : Tracker
  drv : List DMap
  ref : Nat → SymRef

/-- The requests for one driver interval (source/PendingRvalueQueue.cpp:88-97). -/
def intervalDeps (ref : SymRef) (n : Nat) (p : Pending) (x : BitRange × List DriverInfo) :
    List Dep :=
  match x.1.intersection p.bounds with
  | none => []
  | some eb => x.2.filterMap fun d => d.node.map fun s => ⟨s, n, some ref, eb, p.kind⟩

/-- `emitEdgesFor` (source/PendingRvalueQueue.cpp:62-99), as the list of dependencies it adds, in
order. -/
def emitDeps (c : ResolveCtx) (p : Pending) : Except Fault (List Dep) :=
  match p.node with
  | none => .ok []
  | some n =>
    match c.vars.lookup p.sym p.bounds with
    | some v => .ok [⟨v, n, some (c.ref p.sym), p.bounds, p.kind⟩]
    | none =>
      match c.trk.intervals c.drv p.sym p.bounds with
      | .error e => .error e
      | .ok ivs => .ok (ivs.flatMap (intervalDeps (c.ref p.sym) n p))

/-- The dependencies of several pending reads, one after the other
(source/PendingRvalueQueue.cpp:102-104, 144-146). -/
def emitAll (c : ResolveCtx) : List Pending → Except Fault (List Dep)
  | [] => .ok []
  | p :: ps =>
    match emitDeps c p with
    | .error e => .error e
    | .ok ds =>
      match emitAll c ps with
      | .error e => .error e
      | .ok es => .ok (ds ++ es)

/-- `resolveSequential` (source/PendingRvalueQueue.cpp:101-106). A node outside the graph is a
fault. -/
def resolveSequential (c : ResolveCtx) (net : NetGraph) (q : List Pending) :
    Except Fault NetGraph :=
  match emitAll c q with
  | .error e => .error e
  | .ok ds =>
    match net.addDependencies ds with
    | none => .error .oob
    | some net' => .ok net'

/-- The sort key of a target: its address, null first (source/PendingRvalueQueue.cpp:116). -/
def targetKey (addr : Nat → Nat) : Option Nat → Nat
  | none => 0
  | some n => addr n + 1

/-- Possible results of the unstable sort (source/PendingRvalueQueue.cpp:116): any ascending
rearrangement. -/
def SortsTo (addr : Nat → Nat) (q q' : List Pending) : Prop :=
  q'.Perm q ∧ q'.Pairwise fun a b => targetKey addr a.node ≤ targetKey addr b.node

/-- `firstRealIdx` (source/PendingRvalueQueue.cpp:119-121). -/
def firstReal (q : List Pending) : Nat := (q.takeWhile fun p => p.node.isNone).length

/-- Whether a run starts at position `i` (source/PendingRvalueQueue.cpp:129). -/
def startsRun (q : List Pending) (i : Nat) : Bool :=
  decide ((q[i]?).map Pending.node ≠ (q[i - 1]?).map Pending.node)

/-- `runStarts` (source/PendingRvalueQueue.cpp:125-134). -/
def runStarts (q : List Pending) : List Nat :=
  let f := firstReal q
  if f < q.length then
    f :: ((List.range' (f + 1) (q.length - (f + 1))).filter (startsRun q) ++ [q.length])
  else []

/-- The entries of the runs `queue[runStarts[r] .. runStarts[r+1])`
(source/PendingRvalueQueue.cpp:136, 144-145). -/
def slicesOf (q : List Pending) : List Nat → List (List Pending)
  | a :: b :: l => (q.take b).drop a :: slicesOf q (b :: l)
  | _ => []

/-- The runs of a queue (source/PendingRvalueQueue.cpp:125-136). -/
def runs (q : List Pending) : List (List Pending) := slicesOf q (runStarts q)

/-- The orders in which threads that each work through a list can perform all the work
(`detach_blocks` and `wait`, source/PendingRvalueQueue.cpp:141-157). -/
inductive Interleave {α : Type} : List (List α) → List α → Prop where
  | done {ls : List (List α)} : (∀ l ∈ ls, l = []) → Interleave ls []
  | step {pre post : List (List α)} {x : α} {xs ys : List α} :
    Interleave (pre ++ xs :: post) ys → Interleave (pre ++ (x :: xs) :: post) (x :: ys)

/-- The dependencies of each block of runs, in the order its thread adds them
(source/PendingRvalueQueue.cpp:141-155). -/
def emitBlocks (c : ResolveCtx) : List (List (List Pending)) → Except Fault (List (List Dep))
  | [] => .ok []
  | b :: bs =>
    match emitAll c b.flatten with
    | .error e => .error e
    | .ok ds =>
      match emitBlocks c bs with
      | .error e => .error e
      | .ok es => .ok (ds :: es)

/-- `resolveParallel` (source/PendingRvalueQueue.cpp:108-164): some sorted order `q'`, some division
of its runs into blocks of consecutive runs, and some interleaving of the blocks' work. One
`addDependency` is one step: an edge is annotated only by the thread of its target, and the edge
lists are changed under locks. No entry throws in the model, so the exception handling is left out.
-/
def ResolvesParallel (c : ResolveCtx) (addr : Nat → Nat) (net : NetGraph) (q : List Pending)
    (net' : NetGraph) : Prop :=
  ∃ q' blocks dss ds, SortsTo addr q q' ∧ blocks.flatten = runs q' ∧
    emitBlocks c blocks = .ok dss ∧ Interleave dss ds ∧ net.addDependencies ds = some net'

/-- The choice made by `resolve` (source/PendingRvalueQueue.cpp:166-173): whether the sequential
path is taken. -/
def resolvesSequentially (parallel pool : Bool) (size threshold : Nat) : Bool :=
  !parallel || !pool || decide (size < threshold)

end Verif.Model

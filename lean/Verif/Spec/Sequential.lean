import Verif.Model.Sensitivity

/-! When a procedural block is edge-triggered, independently of how its events are collected. -/
namespace Verif.Spec
open Verif.Model

/-- The signal events an `always`/`always_ff` block waits for before each execution of its body. -/
def eventsOf : ProcKind → ProcBody → List SigEvent
  | .always, .timed (.signalEvent e) => [e]
  | .alwaysFF, .timed (.signalEvent e) => [e]
  | .always, .timed (.eventList es) => es.filterMap id
  | .alwaysFF, .timed (.eventList es) => es.filterMap id
  | _, _ => []

/-- Some event is edge-triggered and none is level-sensitive. -/
def EdgeTriggered (es : List SigEvent) : Prop :=
  (∃ e ∈ es, e.edge ≠ .none) ∧ ∀ e ∈ es, e.edge ≠ .none

/-- Every event list contains signal events only. -/
def SignalEventsOnly : ProcBody → Prop
  | .timed (.eventList es) => ∀ e ∈ es, e ≠ none
  | _ => True

/-- Every edge-triggered event names a signal. -/
def PlainClocks (es : List SigEvent) : Prop := ∀ e ∈ es, e.edge ≠ .none → e.signal ≠ none

/-- A builder state as it can occur: the graph was built by calls, and all nodes mentioned by the
tables are in it, registered with their own ranges. -/
structure BldOk (s : Bld) : Prop where
  reach : ∃ ops, NetGraph.calls {} ops = some s.net
  vars : ∀ sym, ∀ e ∈ s.vars sym, e.val ∈ s.net.g.nodes ∧
    ∃ nb, (s.net.data e.val).bounds = some nb ∧ nb.lower = e.lo ∧ nb.upper = e.hi
  pend : ∀ p ∈ s.queue, ∀ n, p.node = some n → n ∈ s.net.g.nodes

/-- What slang guarantees about symbols: a port is not its own internal symbol, and modport
references resolve to variables. -/
structure DesignOk (D : Design) : Prop where
  port_ne : ∀ s p, D.port s = some p → p ≠ s
  iface_var : ∀ s x, ∀ v ∈ D.iface s x, D.kind v.1 = .variable

/-- All drivers of the range are nodes of the graph. -/
def DriversIn (net : NetGraph) (w : Driven) : Prop :=
  ∀ d ∈ w.drivers, ∀ n, d.node = some n → n ∈ net.g.nodes

/-- A read of `sym` on behalf of node `n`, with edge kind `k`, is waiting. -/
def Waiting (q : List Pending) (n sym : Nat) (k : EdgeKind) : Prop :=
  ∃ p ∈ q, p.node = some n ∧ p.sym = sym ∧ p.kind = k

end Verif.Spec

import Verif.Model.Locks
import Verif.Spec.AbsGraph

/-! Vocabulary for concurrent edge insertion. -/
namespace Verif.Spec
open Verif.Model

/-- All threads have made all their calls. -/
def AllDone (s : LSt) : Prop := ∀ u, s.th u = .idle ∧ s.todo u = []

/-- The call of the sequential interface that a request stands for. -/
def reqOp (r : Req) : GOp := if r.dedup then .addEdge r.src r.tgt else .addNewEdge r.src r.tgt

/-- A completed call: who made it, what it was, what it returned. -/
structure Done where
  thread : Nat
  req : Req
  edge : Edge

/-- The completed calls of one thread, in order. -/
def ofThread (l : List Done) (u : Nat) : List (Req × Edge) :=
  (l.filter fun d => d.thread == u).map fun d => (d.req, d.edge)

end Verif.Spec

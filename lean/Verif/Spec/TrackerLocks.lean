import Verif.Model.TrackerLocks

/-! Specification vocabulary for C95: concurrent recording of drivers. -/
namespace Verif.Spec
open Verif.Model

/-- All threads have made all their calls. -/
def VDone (s : VSt) : Prop := ∀ u, (s.th u = .idle) ∧ s.todo u = []

/-- The thread waits because of another one that asks for the exclusive lock: implementations of
`std::shared_mutex` may let no new reader in while a writer waits. -/
def HeldBack (s : VSt) (u : Nat) : Prop :=
  (∃ c i, s.th u = .enter c i ∨ s.th u = .reenter c i) ∧ ∃ v c i, s.th v = .upgrade c i

/-- The calls of one thread in a log of calls. -/
def callsOf (log : List (Nat × Nat × Rec)) (u : Nat) : List (Nat × Rec) :=
  (log.filter fun x => x.1 == u).map (·.2)

/-- The driver map of a symbol, empty if the symbol has none. -/
def mapFor (t : Tracker) (drv : List DMap) (sym : Nat) : DMap :=
  match t.getSlot sym with
  | none => {}
  | some i => (drv[i]?).getD {}

/-- A tracker that no thread is using: every symbol has one slot, no two symbols share one, slots come
from the counter, the reverse mapping mirrors the slots, and no drivers are recorded outside the slots. -/
structure TrackerOk (t : Tracker) (names : List (Nat × Nat)) (drv : List DMap) : Prop where
  fresh : ∀ p ∈ t.slots, p.2 < t.next
  inj : ∀ p ∈ t.slots, ∀ q ∈ t.slots, p.2 = q.2 → p = q
  keys : (t.slots.map (·.1)).Nodup
  names : ∀ i sym, (i, sym) ∈ names ↔ (sym, i) ∈ t.slots
  blank : ∀ (i : Nat) m, drv[i]? = some m → (∀ p ∈ t.slots, p.2 ≠ i) → m = {}

end Verif.Spec

import Verif.Spec.Source
import Verif.Spec.Tick

/-!
What a design given as text computes from one time to the next. Nothing here mentions slices, segments or
the notes of the analysis.
-/
namespace Verif.Spec
open Verif.Model

/-- The values scheduled after a non-blocking assignment, over the values `ν` scheduled before: a bit gets
the value of the last bit of the left side that stands for it. All of them are computed from `ρ`. -/
def putInto {V : Type} (F : Vals V → Nat → V) (lhs : SExpr) (ρ ν : Vals V) : Vals V := fun x p =>
  match lastBit lhs x p 0 lhs.width with
  | some k => F ρ k
  | none => ν x p

/-- The values that a run of a statement schedules with non-blocking assignments, over the values `ν`
scheduled before. `sel` tells which alternatives to take and `ρ` are the current values. -/
def laterText {V : Type} (M : Sense V) : SStmt → (Nat → Bool) → Vals V → Vals V → Vals V
  | .skip, _, _, ν | .eval _, _, _, ν | .dead, _, _, ν => ν
  | .assign b a, _, ρ, ν => if b then ν else putInto (M.value a.loc) a.lhs ρ ν
  | .cond k loc _ t, _, ρ, ν => laterText M t (M.pick k loc ρ) ρ ν
  | .seq s t, sel, ρ, ν => laterText M t sel (runText M s sel ρ) (laterText M s sel ρ ν)
  | .choose _ s t, sel, ρ, ν =>
    if sel 0 then laterText M s (fun n => sel (n + 1)) ρ ν else laterText M t (fun n => sel (n + 1)) ρ ν

/-- The statement has a non-blocking assignment to bit `p` of `x`. -/
def Schedules : SStmt → Nat → Int → Prop
  | .assign b a, x, p => b = false ∧ ∃ k, k < a.lhs.width ∧ StandsFor a.lhs k x p
  | .cond _ _ _ t, x, p => Schedules t x p
  | .seq s t, x, p | .choose _ s t, x, p => Schedules s x p ∨ Schedules t x p
  | _, _, _ => False

/-- The block is edge-triggered and has a non-blocking assignment to bit `j` of `x`. -/
def TextKept (b : SDeferred) (x j : Nat) : Prop := TextClocked b ∧ Schedules (SDeferred.stmt b) x j

/-- The block gives bit `j` of `x` its value: it is edge-triggered and the bit is one of a register, or it is
not. -/
def TextGives (b : SDeferred) (x j : Nat) : Prop :=
  TextKept b x j ∨ (¬ TextClocked b ∧ Assigns (SDeferred.stmt b) x j)

/-- The event list of the block has a signal with bit `i` of `z`. -/
def TextWaits (D : Design) (b : SDeferred) (z i : Nat) : Prop :=
  ∃ k body st, b = .procedural k body st ∧ ∃ v ∈ eventsOf k body, v.signal = some z ∧ i < D.width z

/-- Whether a block fires is determined by the values that the signals it waits for have had until then. -/
def TextTriggers {V : Type} (D : Design) (text : Deferred → SDeferred) (bs : List Deferred)
    (T : (Nat → Vals V) → Nat → Deferred → Bool) : Prop :=
  ∀ b ∈ bs, ∀ t σ σ', (∀ t' ≤ t, ∀ z i, TextWaits D (text b) z i → σ t' z (i : Int) = σ' t' z (i : Int)) →
    T σ t b = T σ' t b

/-- The values over time: at every time those outside registers are stable, and from one time to the next
every edge-triggered block that fires gives the bits of its non-blocking assignments the values it
schedules; others keep their values. `bs` are the blocks and `es` the events. -/
structure TextUnrolls {V : Type} (M : Sense V) (E : TravEnv) (text : Deferred → SDeferred) (bs : List Deferred)
    (es : List Event) (fire : Nat → Deferred → Bool) (σ : Nat → Vals V) : Prop where
  stable : ∀ t, TextSolves M E text bs es (σ t)
  step : ∀ t, ∀ b ∈ bs, ∀ x j, TextKept (text b) x j → σ (t + 1) x j =
    if fire t b then laterText M (SDeferred.stmt (text b)) (fun _ => true) (σ t) (σ t) x j else σ t x j

end Verif.Spec

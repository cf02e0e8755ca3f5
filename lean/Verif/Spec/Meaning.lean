import Verif.Spec.Cycles
import Verif.Spec.Reach

/-!
What a design computes, without a graph: values of bits, the run of a block on them, and the designs
for which the netlist accounts for every influence of one bit on another.
-/
namespace Verif.Spec
open Verif.Model

/-- A value for every bit of every signal. -/
abbrev Vals (V : Type) := Nat → Int → V

/-- What the text of a design stands for: the value an assignment (or a segment of one) gives to a bit
of a signal, the alternatives a conditional or case takes (nested ones in order), and the value of a bit
inside an instance that is connected to an expression outside. All of them look at the current values. -/
structure Meaning (V : Type) where
  value : TextLoc → Vals V → Nat → Int → V
  pick : Bool → TextLoc → Vals V → Nat → Bool
  feed : Nat → Nat → Vals V → V

/-- The values after some writes of one assignment. All of them take what they write from the values
`ρ0` before the assignment. -/
def store {V : Type} (M : Meaning V) (ρ0 : Vals V) : List Wr → Vals V → Vals V
  | [], ρ => ρ
  | w :: ws, ρ => store M ρ0 ws fun x p =>
      if w.sym = x ∧ w.bounds.lower ≤ p ∧ p ≤ w.bounds.upper then M.value w.loc ρ0 x p else ρ x p

/-- The alternatives to take after a statement: a conditional or case selects them. -/
def enter {V : Type} (M : Meaning V) (ρ : Vals V) (sel : Nat → Bool) : Stmt → Nat → Bool
  | .branch k loc => M.pick k loc ρ
  | _ => sel

/-- The run of a statement: the values after it, when `sel` tells which alternatives to take.
Non-blocking assignments take effect later. -/
def run {V : Type} (M : Meaning V) : Stmt → (Nat → Bool) → Vals V → Vals V
  | .skip, _, ρ | .reads _, _, ρ | .branch .., _, ρ | .dead, _, ρ => ρ
  | .assign loc b a, _, ρ => if b then store M ρ (asgWrites loc b a) ρ else ρ
  | .seq s t, sel, ρ => run M t (enter M ρ sel s) (run M s sel ρ)
  | .choose _ s t, sel, ρ => if sel 0 then run M s (fun n => sel (n + 1)) ρ else run M t (fun n => sel (n + 1)) ρ

/-- The function looks at the bits in `R` only. -/
def LooksAt {V A : Type} (R : Nat → Int → Prop) (F : Vals V → A) : Prop :=
  ∀ ρ ρ', (∀ x p, R x p → ρ x p = ρ' x p) → F ρ = F ρ'

/-- The assignment at `loc` reads `r` for the node at `l`. -/
inductive AsgReads : TextLoc → Asg → TextLoc → Ref → Prop
  | note {loc : TextLoc} {notes : List Note} {r : Ref} : ⟨false, r⟩ ∈ notes → r.auto = false →
    AsgReads loc (.legacy notes) loc r
  | seg {loc : TextLoc} {segs : List DSeg} {g : DSeg} {x : RSrc} {r : Ref} : g ∈ segs → x ∈ g.rhs → SrcReads x r →
    AsgReads loc (.aligned segs) g.loc r

/-- The bits of some reads. -/
def BitsIn (R : Ref → Prop) (x : Nat) (p : Int) : Prop := ∃ r, R r ∧ r.sym = x ∧ InRng r.bounds p

/-- Assignments compute their values from the bits they read, and conditions from those of the
expressions behind them. -/
def Reflects {V : Type} (M : Meaning V) : Stmt → Prop
  | .assign loc _ a => ∀ l ∈ asgLocs loc a, LooksAt (BitsIn (AsgReads loc a l)) (M.value l)
  | .seq s t => Reflects M s ∧ Reflects M t ∧ ∀ k loc rs t', s = .branch k loc → t = .seq (.reads rs) t' →
      LooksAt (BitsIn fun r => r ∈ rs ∧ r.auto = false) (M.pick k loc)
  | .choose _ s t => Reflects M s ∧ Reflects M t
  | _ => True

/-- No bit that is read for one node of the assignment is written by another one, and in an assignment
that is not split the writes are noted before the reads. -/
def Orderly (loc : TextLoc) : Asg → Prop
  | .legacy notes => ∀ pre r post, notes = pre ++ ⟨false, r⟩ :: post → Apart (asgWrites loc true (.legacy post)) r
  | .aligned segs => ∀ pre g post, segs = pre ++ g :: post → ∀ x ∈ g.rhs, ∀ r, SrcReads x r →
      Apart (asgWrites loc true (.aligned pre)) r ∧ Apart (asgWrites loc true (.aligned post)) r

/-- Along every path, at most one assignment or one conditional statement follows. -/
inductive Brief : Stmt → Prop
  | quiet {s : Stmt} : Quiet s → Brief s
  | assign {loc : TextLoc} {b : Bool} {a : Asg} : Brief (.assign loc b a)
  | cond {k : Bool} {loc : TextLoc} {rs : List Ref} {t : Stmt} : Brief t →
    Brief (.seq (.branch k loc) (.seq (.reads rs) t))
  | after {s t : Stmt} : Quiet s → Brief t → Brief (.seq s t)
  | before {s t : Stmt} : Brief s → Quiet t → Brief (.seq s t)
  | choose {f : Bool} {s t : Stmt} : Brief s → Brief t → Brief (.choose f s t)

/-- A statement of blocking assignments and conditionals, with brief alternatives. What is read lines
up with the writes `W` of the block. -/
inductive Comb (W : List Wr) : Stmt → Prop
  | quiet {s : Stmt} : Quiet s → Comb W s
  | assign {loc : TextLoc} {a : Asg} : Orderly loc a → (∀ l r, AsgReads loc a l r → ReadFits W r.sym r.bounds) →
    Comb W (.assign loc true a)
  | cond {k : Bool} {loc : TextLoc} {rs : List Ref} {t : Stmt} : Brief t → Comb W t →
    (∀ r ∈ rs, r.auto = false → ReadFits W r.sym r.bounds) → Comb W (.seq (.branch k loc) (.seq (.reads rs) t))
  | seq {s t : Stmt} : Comb W s → Comb W t → Comb W (.seq s t)
  | choose {f : Bool} {s t : Stmt} : Comb W s → Comb W t → Comb W (.choose f s t)

/-- A bit that is read has been written before on every path to the read, or on none. Bits are numbered
from 0. -/
def Settled (st : Stmt) : Prop :=
  ∀ who r Q, Use Start st who r Q → ∀ p, InRng r.bounds p → 0 ≤ p ∧
    ((∀ tr, Q tr → ∀ w ∈ tr, ¬ Hits true r.sym p w) ∨ ∀ tr, Q tr → ∃ w ∈ tr, Hits true r.sym p w)

/-- A bit that is written is written on every path: there are no latches. -/
def Complete (st : Stmt) : Prop :=
  ∀ x p, (∃ w ∈ allWrites st, Hits true x p w) → ∀ tr, Runs st tr → ∃ w ∈ tr, Hits true x p w

/-- An input connection ties bit `j` of `x` inside an instance to bit `q` of `y` outside. -/
def Inlet (E : TravEnv) (es : List Event) (y q x j : Nat) : Prop :=
  ∃ p k, k.output = false ∧ Tied E es p k j y q ∧ LastSupply es x j p

/-- An output connection, resolved bit by bit, ties bit `j` of `x` inside an instance to bit `q` of `y`
outside. -/
def Outlet (E : TravEnv) (es : List Event) (x j y q : Nat) : Prop :=
  ∃ p k e, k.output = true ∧ Tied E es p k j y q ∧ p.inner = some x ∧ k.actual = some e ∧ BitWise E.opts E.D k p.sym e

/-- Bit `q` of `y` is among those that bit `i` of `z`, some levels down, is connected to. -/
inductive Brings (E : TravEnv) (es : List Event) : Nat → Nat → Nat → Nat → Prop
  | refl (y q : Nat) : Brings E es y q y q
  | step {y q x j z i : Nat} : Inlet E es y q x j → Brings E es x j z i → Brings E es y q z i

/-- The bit is assigned by a block that is not edge-triggered, here or through output ports. -/
def Assigned (E : TravEnv) (es : List Event) (cuts : CutReg) (y q : Nat) : Prop :=
  ∃ b ∈ blocksOf es, ¬ Clocked b ∧ ∃ x j : Nat, (∃ w ∈ allWrites b.stmt, Hits true x j w) ∧ Arrives E es cuts b x j y q

/-- The bit has its value from outside: no block assigns it but an edge-triggered one, and no input
connection supplies it. -/
def Source (E : TravEnv) (es : List Event) (cuts : CutReg) (y q : Nat) : Prop :=
  ¬ Assigned E es cuts y q ∧ ∀ y' q', ¬ Inlet E es y' q' y q

/-- The designs for which the netlist accounts for every influence between registers: blocks that are
not edge-triggered consist of blocking assignments under conditions with brief alternatives and have no
latches; output connections are resolved bit by bit; what such blocks assign, and what input connections supply, has no
node of its own; and actuals belong to scopes further up. -/
structure Regular (E : TravEnv) (es : List Event) (cuts : CutReg) : Prop where
  comb : ∀ b ∈ blocksOf es, ¬ Clocked b → Comb (allWrites b.stmt) b.stmt
  settled : ∀ b ∈ blocksOf es, ¬ Clocked b → Settled b.stmt
  complete : ∀ b ∈ blocksOf es, ¬ Clocked b → Complete b.stmt
  assigned : ∀ y q, Assigned E es cuts y q → Bare es y ∧ E.D.kind y ≠ .modportPort
  inlets : ∀ y q x j, Inlet E es y q x j → Bare es x ∧ E.D.kind x ≠ .modportPort
  outlets : ∀ p k e, Before es p k → k.output = true → k.actual = some e → BitWise E.opts E.D k p.sym e
  nested : ∃ depth : Nat → Nat, ∀ y q x j, Inlet E es y q x j → depth y < depth x

/-- The meaning fits the design: assignments and conditions look at what they read, and a bit supplied
by an input connection at the bits it is tied to. -/
structure Faithful {V : Type} (M : Meaning V) (E : TravEnv) (es : List Event) : Prop where
  blocks : ∀ b ∈ blocksOf es, ¬ Clocked b → Reflects M b.stmt
  inlets : ∀ x j, LooksAt (fun y p => ∃ q : Nat, p = q ∧ Inlet E es y q x j) (M.feed x j)

/-- The values are stable: every block that is not edge-triggered gives the bits it writes the values
they have, and so does every connection. -/
structure Solves {V : Type} (M : Meaning V) (E : TravEnv) (es : List Event) (σ : Vals V) : Prop where
  blocks : ∀ b ∈ blocksOf es, ¬ Clocked b → ∀ x p, (∃ w ∈ allWrites b.stmt, Hits true x p w) →
    σ x p = run M b.stmt (fun _ => true) σ x p
  inlets : ∀ y q x j, Inlet E es y q x j → σ x j = M.feed x j σ
  outlets : ∀ x j y q, Outlet E es x j y q → σ y q = σ x j

/-- A block that is not edge-triggered reads bit `i` of `z` from outside for the node `who`. -/
def Fetches (es : List Event) (z i : Nat) (who : NodeData) : Prop :=
  ∃ b ∈ blocksOf es, ¬ Clocked b ∧ ∃ r Q, Use Start b.stmt who r Q ∧ (∃ tr, Q tr) ∧ r.sym = z ∧ InRng r.bounds i ∧
    ReadFits (allWrites b.stmt) z r.bounds ∧ ∀ tr, Q tr → ∀ w ∈ tr, ¬ Hits true z i w

/-- A block, edge-triggered or not, reads bit `i` of `z` from outside for the node `who`. -/
def Sees (es : List Event) (z i : Nat) (who : NodeData) : Prop :=
  ∃ b ∈ blocksOf es, ∃ r Q, Use Start b.stmt who r Q ∧ (∃ tr, Q tr) ∧ r.sym = z ∧ InRng r.bounds i ∧
    ReadFits (allWrites b.stmt) z r.bounds ∧ ∀ tr, Q tr → ∀ w ∈ tr, ¬ Hits true z i w

end Verif.Spec

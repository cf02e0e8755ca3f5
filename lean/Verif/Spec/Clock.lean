import Verif.Spec.IfaceMeaning

/-!
What a design computes from one clock edge to the next, without a graph, and the designs for which the
netlist accounts for every influence over time.
-/
namespace Verif.Spec
open Verif.Model

/-- The values that a run of a statement schedules with non-blocking assignments, over the values `ν`
scheduled before. `sel` tells which alternatives to take and `ρ` are the current values. -/
def later {V : Type} (M : Meaning V) : Stmt → (Nat → Bool) → Vals V → Vals V → Vals V
  | .skip, _, _, ν | .reads _, _, _, ν | .branch .., _, _, ν | .dead, _, _, ν => ν
  | .assign loc b a, _, ρ, ν => if b then ν else store M ρ (asgWrites loc b a) ν
  | .seq s t, sel, ρ, ν => later M t (enter M ρ sel s) (run M s sel ρ) (later M s sel ρ ν)
  | .choose _ s t, sel, ρ, ν =>
    if sel 0 then later M s (fun n => sel (n + 1)) ρ ν else later M t (fun n => sel (n + 1)) ρ ν

/-- A statement of non-blocking assignments and conditionals, with brief alternatives. What is read lines
up with the writes `W` of the block. -/
inductive Sync (W : List Wr) : Stmt → Prop
  | quiet {s : Stmt} : Quiet s → Sync W s
  | assign {loc : TextLoc} {a : Asg} : (∀ l r, AsgReads loc a l r → ReadFits W r.sym r.bounds) →
    Sync W (.assign loc false a)
  | cond {k : Bool} {loc : TextLoc} {rs : List Ref} {t : Stmt} : Brief t → Sync W t →
    (∀ r ∈ rs, r.auto = false → ReadFits W r.sym r.bounds) → Sync W (.seq (.branch k loc) (.seq (.reads rs) t))
  | seq {s t : Stmt} : Sync W s → Sync W t → Sync W (.seq s t)
  | choose {f : Bool} {s t : Stmt} : Sync W s → Sync W t → Sync W (.choose f s t)

/-- The block is edge-triggered and has a non-blocking assignment to bit `j` of `x`. -/
def Kept (b : Deferred) (x j : Nat) : Prop := Clocked b ∧ ∃ w ∈ allWrites b.stmt, Hits false x j w

/-- The bit has the value of a register, here or through output ports. -/
def Held (E : TravEnv) (es : List Event) (cuts : CutReg) (y q : Nat) : Prop :=
  ∃ b ∈ blocksOf es, ∃ x j, Kept b x j ∧ ((y = x ∧ q = j) ∨ Arrives E es cuts b x j y q)

/-- The assignment at `l` reads nothing. -/
def Inert (es : List Event) (l : TextLoc) : Prop :=
  ∀ b ∈ blocksOf es, (∀ r Q, ¬ Use Start b.stmt (.assignment l) r Q) ∧ ¬ Rereads (allWrites b.stmt) Start b.stmt l

/-- `b` is the only edge-triggered block that writes `x`. -/
def Sole (es : List Event) (b : Deferred) (x : Nat) : Prop :=
  ∃ pre post, blocksOf es = pre ++ b :: post ∧
    ∀ b' ∈ pre ++ post, Clocked b' → ∀ w ∈ allWrites b'.stmt, w.sym ≠ x

/-- The signal `x` of block `b` is written and read as a whole, by this edge-triggered block alone, and has no node
otherwise; where it is connected to an input port it is read as a whole, too. -/
structure WellKept (E : TravEnv) (es : List Event) (cuts : CutReg) (b : Deferred) (w : Wr) : Prop where
  range : w.bounds.left ≤ w.bounds.right ∧ (∀ v ∈ allWrites b.stmt, v.sym = w.sym → v.bounds = w.bounds) ∧
    ∀ b' ∈ blocksOf es, ∀ who r Q, Use Start b'.stmt who r Q → r.sym = w.sym → r.bounds = w.bounds
  alone : E.D.kind w.sym ≠ .modportPort ∧ (∀ ev ∈ es, w.sym ∉ declares ev) ∧ Sole es b w.sym ∧
    ∀ p k q x j, k.output = false → Tied E es p k j w.sym q → LastSupply es x j p → InRng w.bounds q →
      TakesAll E cuts p k j w.sym w.bounds

/-- The designs for which the netlist accounts for every influence over time, besides being regular:
edge-triggered blocks consist of non-blocking assignments under conditions with brief alternatives. The
signals they write are always written and read as a whole, by one such block, and have no node otherwise;
where they are connected to input ports they are read as a whole, too, and what they are connected to
through output ports has no node.
If several assignments write the same bit, those that do not come last read nothing, and the conditions in
front of them also lead to the last one. -/
structure Timed (E : TravEnv) (es : List Event) (cuts : CutReg) : Prop where
  sync : ∀ b ∈ blocksOf es, Clocked b → Sync (allWrites b.stmt) b.stmt
  count : ∀ b ∈ blocksOf es, Clocked b → ∀ who r Q, Use Start b.stmt who r Q → ∀ p, InRng r.bounds p → 0 ≤ p
  range : ∀ b ∈ blocksOf es, Clocked b → ∀ w ∈ allWrites b.stmt, w.bounds.left ≤ w.bounds.right ∧
    (∀ v ∈ allWrites b.stmt, v.sym = w.sym → v.bounds = w.bounds) ∧
    ∀ b' ∈ blocksOf es, ∀ who r Q, Use Start b'.stmt who r Q → r.sym = w.sym → r.bounds = w.bounds
  alone : ∀ b ∈ blocksOf es, Clocked b → ∀ w ∈ allWrites b.stmt, E.D.kind w.sym ≠ .modportPort ∧
    (∀ ev ∈ es, w.sym ∉ declares ev) ∧ Sole es b w.sym ∧
    ∀ p k q x j, k.output = false → Tied E es p k j w.sym q → LastSupply es x j p → InRng w.bounds q →
      TakesAll E cuts p k j w.sym w.bounds
  outs : ∀ b ∈ blocksOf es, ∀ x j y q, Kept b x j → Arrives E es cuts b x j y q →
    Bare es y ∧ E.D.kind y ≠ .modportPort
  last : ∀ b ∈ blocksOf es, Clocked b → ∀ x p loc, Leaves b.stmt x p loc → ∀ w ∈ allWrites b.stmt,
    Hits false x p w → w.loc = loc ∨ (Inert es w.loc ∧ ∀ b' ∈ blocksOf es, ∀ u,
      Guards b'.stmt u (.assignment w.loc) → Reach (Guards b.stmt) u (.assignment loc))

/-- The values over time: at every time those outside registers are stable, and from one time to the next
every edge-triggered block that fires gives the bits it writes the values it schedules; others keep their
values. -/
structure Unrolls {V : Type} (M : Meaning V) (E : TravEnv) (es : List Event) (fire : Nat → Deferred → Bool)
    (σ : Nat → Vals V) : Prop where
  stable : ∀ t, Solves M E es (σ t)
  step : ∀ t, ∀ b ∈ blocksOf es, ∀ x j, Kept b x j → σ (t + 1) x j =
    if fire t b then later M b.stmt (fun _ => true) (σ t) (σ t) x j else σ t x j

/-- `v` depends on `u`, at once or from one clock edge to the next: `keep` goes through a register that
is read directly, `enter` through one that is read through input ports, `out` through one that is read
through output ports and `cross` through one that is read over an interface. -/
inductive Hands (E : TravEnv) (es : List Event) (cuts : CutReg) : NodeData → NodeData → Prop
  | pass {u v : NodeData} : Passes E es cuts u v → Hands E es cuts u v
  | keep {b1 b2 : Deferred} {x j : Nat} {loc : TextLoc} {who : NodeData} {r : Ref} {Q : List Wr → Prop} :
    b1 ∈ blocksOf es → Kept b1 x j → ¬ OnIface E es x → Leaves b1.stmt x j loc → b2 ∈ blocksOf es → Use Start b2.stmt who r Q →
    (∃ tr, Q tr) → ReadFits (allWrites b2.stmt) r.sym r.bounds → r.sym = x → InRng r.bounds j →
    (∀ p, InRng r.bounds p → ∀ tr, Q tr → ∀ w ∈ tr, ¬ Hits true x p w) → Hands E es cuts (.assignment loc) who
  | enter {b1 b2 : Deferred} {x j y q z i : Nat} {loc : TextLoc} {who : NodeData} {r : Ref} {Q : List Wr → Prop} :
    b1 ∈ blocksOf es → Kept b1 x j → ¬ OnIface E es x → Leaves b1.stmt x j loc → Inlet E es x j y q →
    Down E es y q z i → b2 ∈ blocksOf es → Use Start b2.stmt who r Q → (∃ tr, Q tr) →
    ReadFits (allWrites b2.stmt) r.sym r.bounds → r.sym = z → InRng r.bounds i →
    (∀ tr, Q tr → ∀ w ∈ tr, ¬ Hits true z i w) → E.D.kind z ≠ .modportPort → Bare es z →
    Hands E es cuts (.assignment loc) who
  | out {b1 b2 : Deferred} {x j y q z i : Nat} {loc : TextLoc} {who : NodeData} {r : Ref} {Q : List Wr → Prop} :
    b1 ∈ blocksOf es → Kept b1 x j → Leaves b1.stmt x j loc → Arrives E es cuts b1 x j y q →
    Down E es y q z i → b2 ∈ blocksOf es → Use Start b2.stmt who r Q → (∃ tr, Q tr) →
    ReadFits (allWrites b2.stmt) r.sym r.bounds → r.sym = z → InRng r.bounds i →
    (∀ tr, Q tr → ∀ w ∈ tr, ¬ Hits true z i w) → E.D.kind z ≠ .modportPort → Bare es z →
    Hands E es cuts (.assignment loc) who
  | cross {b : Deferred} {y j : Nat} {loc : TextLoc} {who : NodeData} : b ∈ blocksOf es → Kept b y j →
    Leaves b.stmt y j loc → Crosses E es cuts b y who → Hands E es cuts (.assignment loc) who

end Verif.Spec

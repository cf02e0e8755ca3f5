import Verif.Spec.Script
import Verif.Spec.Dependency
import Verif.Props.ValueTracker
import Verif.Spec.Build

/-! Specification vocabulary for C94. -/
namespace Verif.Spec
open Verif.Model Verif.Props

/-- What a block does in a list of operations of several blocks. -/
def opsOf (l : List (Nat × BAct)) (w : Nat) : List BAct := (l.filter fun x => x.1 == w).map (·.2)

/-- The list is an order in which the blocks can do all their operations: each block does its own, in its
order. -/
def ScheduleOf (as : Nat → List BAct) (l : List (Nat × BAct)) : Prop := ∀ w, opsOf l w = as w

/-- Each of the blocks `ws` does all its operations before the next one begins. -/
def oneByOne (as : Nat → List BAct) (ws : List Nat) : List (Nat × BAct) := ws.flatMap fun w => (as w).map (w, ·)

/-- The operations of the blocks, by the number of the block. -/
structure ScriptsOf (D : Design) (ord : Tracker → List (Nat × Nat)) (bs : List Deferred) (as : Nat → List BAct) :
    Prop where
  block : ∀ (w : Nat) b, bs[w]? = some b → Scripted D ord b (as w)
  rest : ∀ w, bs.length ≤ w → as w = []

/-- No block makes a register of the signal. -/
def NoReg (as : Nat → List BAct) (sym : Nat) : Prop := ∀ w b i, BAct.reg sym b i ∉ as w

/-- Two ranges have no bit in common. -/
def NoCommonBit (a b : BitRange) : Prop := ∀ i, InRng a i → ¬ InRng b i

/-- Two ranges do not have the same bits. -/
def BitsDiffer (a b : BitRange) : Prop := ∃ i, ¬ (InRng a i ↔ InRng b i)

/-- Two recordings of drivers do not meet. -/
def Unmet (a b : BAct) : Prop :=
  ∀ sym x l y m, a = .drive sym x l → b = .drive sym y m → NoCommonBit x y

/-- Blocks that meet in nothing whose order matters: interface variables that are read or written through
modports and ports that are driven are no registers; of a driven range of a variable no other block makes a
register; no two blocks make a register of the same range; driven ranges are apart, from each other and from
what is driven before, and lie inside the 32-bit integers. -/
structure Separate (D : Design) (s : Bld) (as : Nat → List BAct) : Prop where
  reads : ∀ w r b a, BAct.mread r b a ∈ as w → ∀ v ∈ D.iface r.sym r.lsp, NoReg as v.1
  writes : ∀ w sym b l, BAct.extra sym b l ∈ as w → D.kind sym = .modportPort →
    ∀ d ∈ l, ∀ v ∈ D.iface sym d.lsp, NoReg as v.1
  vars : ∀ w sym b l, BAct.extra sym b l ∈ as w → D.kind sym = .variable →
    ∀ v c i, v ≠ w → BAct.reg sym c i ∈ as v → BitsDiffer b c
  ports : ∀ w sym b l z, BAct.hook sym b l ∈ as w → D.port sym = some z → NoReg as z
  regs : ∀ w v sym b c i j, BAct.reg sym b i ∈ as w → BAct.reg sym c j ∈ as v → w ≠ v → BitsDiffer b c
  own : ∀ w, (as w).Pairwise Unmet
  other : ∀ w v, w ≠ v → ∀ a ∈ as w, ∀ b ∈ as v, Unmet a b
  before : ∀ w sym b l, BAct.drive sym b l ∈ as w → s.trk.intervals s.drv sym b = .ok []
  range : ∀ w sym b l, BAct.drive sym b l ∈ as w → ∀ i, InRng b i → -2147483648 ≤ i ∧ i < 2147483647

/-- The builder at the end of Phase 1: its graph was made by the calls of the interface, the nodes it knows
are in the graph, and its driver maps record a history of drivers in ranges inside the 32-bit integers none of
which was split. -/
structure Begun (s : Bld) (hist : List (Nat × Rec)) : Prop where
  reach : ∃ ops, NetGraph.calls {} ops = some s.net
  vars : ∀ sym, ∀ e ∈ s.vars sym, e.val ∈ s.net.g.nodes
  sorted : ∀ sym, (s.vars sym).Pairwise fun a b => a.lo ≤ b.lo
  pend : ∀ p ∈ s.queue, ∀ n, p.node = some n → n ∈ s.net.g.nodes
  run : ({} : Tracker).run [] hist = .ok (s.trk, s.drv)
  range : ∀ sym, InRange (histOf hist sym)
  splits : ∀ sym, NeverSplits (histOf hist sym)
  nodes : ∀ x ∈ hist, ∀ d ∈ x.2.drivers, ∀ n, d.node = some n → n ∈ s.net.g.nodes

/-- Netlist `b` is netlist `a` with each node `x` called `f x`: the nodes are the same things, and between any
two nodes there are the same edges in the same order, with the same annotations. -/
structure Renamed (f : Nat → Nat) (a b : NetGraph) : Prop where
  into : ∀ x ∈ a.g.nodes, f x ∈ b.g.nodes
  onto : ∀ y ∈ b.g.nodes, ∃ x ∈ a.g.nodes, f x = y
  inj : ∀ x ∈ a.g.nodes, ∀ y ∈ a.g.nodes, f x = f y → x = y
  data : ∀ x ∈ a.g.nodes, b.data (f x) = a.data x
  edges : ∀ x ∈ a.g.nodes, ∀ y ∈ a.g.nodes, annots b (f x) (f y) = annots a x y

/-- No block writes the signal. -/
def Unwritten (bs : List Deferred) (sym : Nat) : Prop := ∀ b ∈ bs, ∀ w ∈ allWrites b.stmt, w.sym ≠ sym

/-- Designs whose blocks meet in nothing whose order matters, said of the writes in the blocks: no bit is
written in two blocks, or in a block and by what Phase 1 recorded; the writes inside a block are aligned
(`Plain`); no block writes a port or an interface variable behind a modport by its own name. -/
structure OneWriter (D : Design) (hist : List (Nat × Rec)) (bs : List Deferred) : Prop where
  plain : ∀ b ∈ bs, Plain (allWrites b.stmt)
  blocks : ∀ (i j : Nat) a b, i ≠ j → bs[i]? = some a → bs[j]? = some b → ∀ w ∈ allWrites a.stmt,
    ∀ v ∈ allWrites b.stmt, w.sym = v.sym → NoCommonBit w.bounds v.bounds
  before : ∀ x ∈ hist, ∀ b ∈ bs, ∀ w ∈ allWrites b.stmt, x.1 = w.sym → NoCommonBit x.2.bounds w.bounds
  ports : ∀ sym z, D.port sym = some z → Unwritten bs z
  modports : ∀ sym, D.kind sym = .modportPort → ∀ lsp, ∀ v ∈ D.iface sym lsp, Unwritten bs v.1

end Verif.Spec

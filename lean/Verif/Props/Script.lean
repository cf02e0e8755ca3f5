import Verif.Proofs.Script
import Verif.Props.Build

/-!
C93: what the analysis of a block does to the netlist is fixed by the block: it is one list of operations,
in which the block's nodes are called by the order of their creation, whatever has been built before.
-/
namespace Verif.Props
open Verif.Spec Verif.Model Verif.Proofs

/-- C93: for every block there is one list of operations such that, whatever graph, variable nodes, driver
maps and queue the builder holds, the analysis of the block and the merging of its drivers do exactly those
operations, with the same result and the same fault. -/
theorem block_is_script (D : Design) (ord : Tracker → List (Nat × Nat)) (b : Deferred) :
    ∃ as, Scripted D ord b as := block_scripted D ord b

/-- The script of the flip-flop of the sample design: a node for the assignment, the read of the data, the
register, the read of the clock, and the edges. -/
def dsScript : List BAct :=
  [.node (.assignment (ln 5)), .read 2 ⟨0, 7⟩ (some 0) .none,
    .node (.state (flowCtx.D.ref 3).name (flowCtx.D.ref 3).path (flowCtx.D.ref 3).loc ⟨0, 7⟩), .reg 3 ⟨0, 7⟩ 1,
    .read 1 ⟨0, 7⟩ (some 1) .posEdge, .dep ⟨0, 1, some (flowCtx.D.ref 3), ⟨0, 7⟩, .none⟩,
    .hook 3 ⟨0, 7⟩ [⟨some 1, 0⟩], .extra 3 ⟨0, 7⟩ [⟨some 0, 0⟩]]

/-- It is the script of that block: the same on every builder. -/
theorem ds_script : Scripted flowCtx.D Tracker.slots dsQ dsScript := by
  intro s
  obtain ⟨X, x, y, d, e, h1, h2, h3⟩ : ∃ (X : Bld) (x y : Nat) (d : Dep) (e : Dep),
      (s.acts flowCtx.D [] (dsScript.take 5) = .ok (X, [x, y])) ∧
      (e = ⟨x, y, some (flowCtx.D.ref 3), ⟨0, 7⟩, .none⟩ ∧ e = d) ∧
      s.handleBlock flowCtx.D Tracker.slots dsQ =
        match X.addDeps [d] with
        | .error f => .error f
        | .ok s' => .ok s' := ⟨_, _, _, _, _, rfl, ⟨rfl, rfl⟩, rfl⟩
  obtain ⟨rfl, rfl⟩ := h2
  rw [h3, show dsScript = dsScript.take 5 ++ dsScript.drop 5 from rfl, acts_append, h1]
  show _ = Except.map _ (match (match X.net.addDependency ⟨x, y, some (flowCtx.D.ref 3), ⟨0, 7⟩, .none⟩ with
    | none => Except.error Fault.oob
    | some net' => .ok ({ X with net := net' }, [x, y])) with | .error f => .error f | .ok (s', env') => _)
  unfold Bld.addDeps NetGraph.addDependencies
  cases X.net.addDependency ⟨x, y, some (flowCtx.D.ref 3), ⟨0, 7⟩, .none⟩ <;> rfl

/-! ### The order of the blocks matters

A block that reads an interface variable through a modport port asks which nodes the variable has at that
moment, and a clocked block that drives the variable makes such nodes. -/

/-- A design in which port 9 of a modport stands for bits 7 to 4 of variable 5. -/
def orD : Design :=
  { flowCtx.D with iface := fun sym _ => if sym = 9 then [(5, ⟨4, 7⟩)] else [] }

/-- `always_ff @(posedge clk) begin x <= a; x[3:0] <= b; end` -/
def orQ : Deferred := .procedural .alwaysFF (.timed (.signalEvent ⟨.posEdge, some 1⟩))
  (.seq (.assign (ln 1) false (.aligned [⟨[dsRef 5], [.lsp (dsRef 2)], ln 1⟩]))
    (.assign (ln 2) false (.aligned [⟨[⟨5, ⟨0, 3⟩, 0, false⟩], [.lsp ⟨3, ⟨0, 3⟩, 0, false⟩], ln 2⟩])))

/-- `assign y[3:0] = m.hi;` with `hi` the modport port. -/
def orR : Deferred := .continuous (ln 3)
  (.aligned [⟨[⟨4, ⟨0, 3⟩, 0, false⟩], [.lsp ⟨9, ⟨0, 3⟩, 0, false⟩], ln 3⟩])

/-- The nodes at the ends of the edges of a built netlist, by what they are. -/
def orEdges (bs : List Deferred) : Option (List (NodeData × NodeData)) :=
  match dsBld.build orD Tracker.slots bs with
  | .error _ => none
  | .ok net => some (net.g.nodes.flatMap fun n =>
      (net.g.obj n).outE.map fun e => (net.data e.src, net.data e.tgt))

/-- C93, what the lists do not give: the netlist depends on the order in which the blocks are analysed. With
the clocked block first the register of bits 7 to 4 has an edge to the assignment that reads them; with the
reader first the reader finds no node for those bits, and the edge is missing from the finished netlist. -/
theorem order_changes_netlist :
    ∃ e1 e2, orEdges [orQ, orR] = some e1 ∧ orEdges [orR, orQ] = some e2 ∧
      (NodeData.state [] ['f'] {} ⟨4, 7⟩, NodeData.assignment (ln 3)) ∈ e1 ∧
      ∀ d, (d, NodeData.assignment (ln 3)) ∉ e2 := by
  have h : (∃ e1 ∈ orEdges [orQ, orR], (NodeData.state [] ['f'] {} ⟨4, 7⟩, NodeData.assignment (ln 3)) ∈ e1) ∧
      ∃ e2 ∈ orEdges [orR, orQ], ∀ p ∈ e2, p.2 ≠ NodeData.assignment (ln 3) := by decide +kernel
  obtain ⟨⟨e1, h1, h2⟩, e2, h3, h4⟩ := h
  exact ⟨e1, e2, h1, h3, h2, fun d hd => h4 _ hd rfl⟩

end Verif.Props

import Verif.Proofs.Unreachable
import Verif.Props.Dataflow

/-! C112: unreachable code records nothing. -/
namespace Verif.Props
open Verif.Model Verif.Spec Verif.Proofs

/-- C112 (partial): the analysis of code after a jump succeeds, and records nothing of it; its nodes are not connected to
others, and the state stays unreachable. For code whose assignments are not resolved bit by bit; otherwise the code contradicts
the claim (`unreachable_with_bits`). -/
theorem unreachable_idle_partial (c : DfaCtx) {st : Stmt} (hw : TakenWhole st) {s : Dfa} (hr : Reachable s.net) :
    ∃ s', s.exec c (.seq .dead st) = .ok s' ∧ Untouched s s' ∧ s'.cur.reach = false ∧ s'.cur.drv = [] := by
  obtain ⟨s', h1, h2, h3, _⟩ := asleep_exec (c := c) (B := s) st hw (s := { s with cur := { reach := false } })
    (asleep_cur (asleep_start hr) _) ⟨rfl, rfl, (fun k hk => by cases hk), (fun k hk => by cases hk)⟩
  exact ⟨s', by simp only [Dfa.exec, h1], h2.un, h3.reach, h3.drv⟩

/-- C112 (partial), branches: after an alternative that jumps away, the state is that of the other one, whatever code follows the
jump: the same drivers, node and condition. -/
theorem unreachable_branch_partial (c : DfaCtx) {st : Stmt} (hw : TakenWhole st) (f : Bool) {a : Stmt} {s s1 : Dfa}
    (ha : s.exec c a = .ok s1) (hr : Reachable s1.net) (hl : s1.cur.reach = true) :
    ∃ s', s.exec c (.choose f a (.seq .dead st)) = .ok s' ∧ Untouched s1 s' ∧ s'.cur = s1.cur := by
  obtain ⟨s2, h1, h2, h3, h4⟩ := unreachable_idle_partial c hw (s := { s1 with cur := s.cur }) hr
  refine ⟨{ s2 with cur := s1.cur }, ?_, ⟨h2.trk, h2.queue, h2.nba, h2.nodes, h2.kept, h2.new⟩, rfl⟩
  simp only [Dfa.exec] at h1
  cases f <;> simp [Dfa.exec, ha, h1, Dfa.joinState, h3, hl]

/-- C112 (partial), blocks: so at the end of the block the drivers are those of the other alternative alone. -/
theorem unreachable_block_partial (c : DfaCtx) {st : Stmt} (hw : TakenWhole st) (f : Bool) {a : Stmt} {s s1 t : Dfa}
    (ha : s.exec c a = .ok s1) (hr : Reachable s1.net) (hl : s1.cur.reach = true) (hb : s.runBlock c a = .ok t) :
    ∃ t', s.runBlock c (.choose f a (.seq .dead st)) = .ok t' ∧ t'.trk = t.trk ∧ t'.cur = t.cur := by
  obtain ⟨s', h1, h2, h3⟩ := unreachable_branch_partial c hw f ha hr hl
  simp only [Dfa.runBlock, ha] at hb
  obtain ⟨t', g1, g2, g3⟩ := processNba_same _ h2.trk h3 hb
  exact ⟨t', by simp only [Dfa.runBlock, h1, h2.nba, g1], g2, g3⟩

/-- `if (e) begin d = a; end else begin return; if (f) d = b; else begin r <= b; d = d; end end`, the code after the jump taken
as a whole: signals `a` = 0, `b` = 1, `d` = 2, `r` = 3, `e` = 4 and `f` = 5. -/
def ucBefore : Stmt := blk 1 [wrt 2 0 7, rdt 0 0 7]
def ucAfter : Stmt := .seq (.branch false (ln 2)) (.seq (.reads [⟨5, ⟨0, 0⟩, 0, false⟩])
  (.choose true (blk 3 [wrt 2 0 7, rdt 1 0 7]) (.seq (nbl 4 [wrt 3 0 7, rdt 1 0 7]) (blk 5 [wrt 2 0 7, rdt 2 0 7]))))

/-- The hypotheses hold for it. -/
example : TakenWhole ucAfter ∧ ({ net := {} } : Dfa).exec flowCtx ucBefore = .ok (stmtEnd ucBefore) ∧
    (stmtEnd ucBefore).cur.reach = true ∧ Reachable (stmtEnd ucBefore).net := by
  refine ⟨⟨trivial, trivial, trivial, trivial, trivial⟩, rfl, rfl, ?_⟩
  obtain ⟨s', n, h1, h2, -⟩ := dfa_newNode (s := { net := {} }) ⟨[], rfl⟩ (.assignment (ln 1))
  cases h1
  exact h2.reach

/-- After it only the reachable assignment drives `d`, nothing drives `r`, and only its read of `a` is pending. -/
example : linesAt (blockEnd (.choose true ucBefore (.seq .dead ucAfter))) 2 7 = [1] ∧
    linesAt (blockEnd (.choose true ucBefore (.seq .dead ucAfter))) 3 7 = [] ∧
    ((blockEnd (.choose true ucBefore (.seq .dead ucAfter))).queue.map (·.sym)) = [0] := by
  decide +kernel

/-- C112 is false if bits are resolved: of `return; r <= b; d = b` the non-blocking assignment is recorded, and so is the read of
`b`; the second is the driver of `d` in the unreachable state. -/
theorem unreachable_with_bits :
    let st := Stmt.seq .dead (.seq (nba1 1 3 0 7)
      (.assign (ln 2) true (.aligned [⟨[⟨2, ⟨0, 7⟩, 0, false⟩], [.lsp ⟨1, ⟨0, 7⟩, 0, false⟩], ln 2⟩])))
    (stmtEnd st).nba.map (·.sym) = [3] ∧ (stmtEnd st).queue.map (·.sym) = [1] ∧ linesAt (stmtEnd st) 2 7 = [2] := by
  decide +kernel

end Verif.Props

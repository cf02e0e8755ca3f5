import Verif.Proofs.Force
import Verif.Props.TextTotal

/-! C109: `force` statements. -/
namespace Verif.Props
open Verif.Model Verif.Spec Verif.Proofs

/-- C109 (partial), drivers: a block is analysed without fault to the same drivers of every bit as the block without its
`force` statements. For all blocks the analysis can look at, in either walk of an assignment, whose written ranges have at
most one boundary strictly inside each of them. Missing: other ranges; what conditions guard (`force_takes_condition`) and
what the statement itself reads (`force_reads_signal`), where the code contradicts the claim. -/
theorem force_drivers_partial {c : DfaCtx} {net : NetGraph} (h : Ready c net) {S : SynEnv}
    {place : TextLoc → Nat → TextLoc} {st : SStmt} {u : Stmt} (he : elabStmt S place st = .ok u)
    (hp : Plain (allWrites u)) (hl : live u = true) :
    ∃ v s t, elabStmt S place (unforced st) = .ok v ∧ ({ net := net } : Dfa).runBlock c u = .ok s ∧
      ({ net := net } : Dfa).runBlock c v = .ok t ∧
      (∀ sym p d, Drives s.trk s.cur.drv sym p d → ∃ loc, IsAssign s.net d loc) ∧
      (∀ sym p d, Drives t.trk t.cur.drv sym p d → ∃ loc, IsAssign t.net d loc) ∧
      ∀ sym p loc, (∃ d, Drives s.trk s.cur.drv sym p d ∧ IsAssign s.net d loc) ↔
        ∃ d, Drives t.trk t.cur.drv sym p d ∧ IsAssign t.net d loc := by
  obtain ⟨v, h1, h2⟩ := unforced_writes he
  obtain ⟨s, a1, a2, a3⟩ := block_drivers_partial h hp hl
  obtain ⟨t, b1, b2, b3⟩ := block_drivers_partial h (st := v) (h2.all ▸ hp) (h2.live ▸ hl)
  refine ⟨v, s, t, h1, a1, b1, a2, b2, fun sym p loc => ?_⟩
  rw [a3, b3, h2.nba true]
  simp only [h2.runs]

/-- C109 (partial), reads: a read after statements is connected to the assignments that would reach it without the `force`
statements among them, and to no others: by an edge from every assignment that wrote a bit of it last on some path of the
text without them, or, for a bit nothing writes, by a pending read. Missing: the limits of `read_linked_partial`. -/
theorem force_read_linked_partial {c : DfaCtx} {net : NetGraph} (h : Ready c net) {S : SynEnv}
    {place : TextLoc → Nat → TextLoc} {st : SStmt} {u : Stmt} (he : elabStmt S place st = .ok u)
    (hp : Plain (allWrites u)) (hl : live u = true) {r : Ref} (hf : ReadFits (allWrites u) r.sym r.bounds)
    (hk : c.D.kind r.sym ≠ .modportPort) {s : Dfa} {n : Nat} (hs : ({ net := net } : Dfa).exec c u = .ok s)
    (hn : s.cur.node = some n) :
    ∃ v s' q, elabStmt S place (unforced st) = .ok v ∧ s.handleRvalue c r = .ok s' ∧ s'.queue = s.queue ++ q ∧
      (∀ x ∈ q, x.sym = r.sym ∧ x.node = some n) ∧
      (∀ tr p loc, Runs v tr → InRng r.bounds p → LastAt true tr r.sym p loc →
        ∃ k ∈ s.net.g.nodes, s.net.data k = .assignment loc ∧ Joined s'.net k n) ∧
      (∀ p, InRng r.bounds p → (∀ tr, Runs v tr → ∀ w ∈ tr, ¬ Hits true r.sym p w) → ∃ x ∈ q, InRng x.bounds p) ∧
      ∀ a k, Joined s'.net a k → Joined s.net a k ∨ (k = n ∧ ∃ tr p loc, Runs v tr ∧ InRng r.bounds p ∧
        LastAt true tr r.sym p loc ∧ s.net.data a = .assignment loc) := by
  obtain ⟨v, h1, h2⟩ := unforced_writes he
  obtain ⟨s', q, g1, g2, g3, g4, g5, _, g7⟩ := read_linked_partial h hp hl hf hs hn
  refine ⟨v, s', q, h1, g1, g2, fun x hx => ⟨(g3 x hx).1, (g3 x hx).2.1⟩,
    fun tr p loc ht hb hla => g4 tr p loc ((h2.runs tr).2 ht) hb hla,
    fun p hb hw => (g5 p hb fun tr ht => hw tr ((h2.runs tr).1 ht)).1 hk, fun a k hj => ?_⟩
  rcases g7 a k hj with h | ⟨rfl, ⟨tr, p, loc, t1, t2⟩ | ⟨h, _⟩⟩
  · exact .inl h
  · exact .inr ⟨rfl, tr, p, loc, (h2.runs tr).1 t1, t2⟩
  · exact absurd h hk

/-- Options of the sample texts. -/
def fcEnv (bits : Bool) : SynEnv := ⟨{ hdE with opts := { hdE.opts with resolveBits := bits } }, fun _ => none, fun _ => false⟩

/-- An assignment of signal `z` to signal `y` on line `n`. -/
def fcAsg (n : Nat) (force : Bool) (y z : Nat) : SStmt :=
  .assign true { loc := ln n, origin := ln n, force := force, lhs := hdWhole y, rhs := hdWhole z }

/-- `b = a; if (c) begin force b = d; e = a; end`, with signals `a` = 0 to `e` = 4. -/
def fcText : SStmt :=
  .seq (fcAsg 1 false 1 0) (.cond false (ln 2) [hdWhole 2] (.choose true (.seq (fcAsg 3 true 1 3) (fcAsg 4 false 4 0)) .skip))

/-- What the analysis sees of a text, and the state after it. -/
def fcSeen (bits : Bool) (st : SStmt) : Stmt := (elabStmt (fcEnv bits) atLoc st).toOption.getD .dead
def fcEnd (bits : Bool) (st : SStmt) : Dfa :=
  (({ net := {} } : Dfa).runBlock flowCtx (fcSeen bits st)).toOption.getD { net := {} }

/-- The hypotheses of C109 hold for it in both walks, and `b` is driven by the assignment on line 1 only. -/
example (bits : Bool) : elabStmt (fcEnv bits) atLoc fcText = .ok (fcSeen bits fcText) ∧
    Plain (allWrites (fcSeen bits fcText)) ∧ live (fcSeen bits fcText) = true ∧ unforced fcText ≠ fcText ∧
    linesAt (fcEnd bits fcText) 1 7 = [1] ∧ linesAt (fcEnd bits fcText) 4 7 = [4] := by
  have hw : ∀ w ∈ allWrites (fcSeen bits fcText), w.bounds = ⟨0, 7⟩ := by cases bits <;> decide +kernel
  refine ⟨by cases bits <;> rfl, plain_of_two (lo := 0) (mid := 3) (hi := 7) (by decide) (by decide)
    (fun w hm => .inr (.inr (hw w hm))) (by decide) (by decide), by cases bits <;> decide +kernel, ?_,
    by cases bits <;> decide +kernel, by cases bits <;> decide +kernel⟩
  simp [unforced, fcText, fcAsg]

/-- The hypotheses of `force_read_linked_partial` hold for a read of `b` after it. -/
example (bits : Bool) : ReadFits (allWrites (fcSeen bits fcText)) 1 ⟨0, 7⟩ ∧ flowCtx.D.kind 1 ≠ .modportPort ∧
    ∃ s n, ({ net := {} } : Dfa).exec flowCtx (fcSeen bits fcText) = .ok s ∧ s.cur.node = some n := by
  have hw : ∀ w ∈ allWrites (fcSeen bits fcText), w.bounds = ⟨0, 7⟩ := by cases bits <;> decide +kernel
  refine ⟨.inl fun w hm _ _ p h => hw w hm ▸ h, by decide, ?_⟩
  have h4 : (match ({ net := {} } : Dfa).exec flowCtx (fcSeen bits fcText) with
      | .ok s => s.cur.node
      | .error _ => none) = some 4 := by cases bits <;> decide +kernel
  cases he : ({ net := {} } : Dfa).exec flowCtx (fcSeen bits fcText) with
  | error f => rw [he] at h4; cases h4
  | ok s => rw [he] at h4; exact ⟨s, 4, rfl, h4⟩

/-- C109 is false for conditions: the conditional (node 1) has edges to the `force` (node 2) and the join at the end (node
4), and not to the assignment after the `force` (node 3); without the `force` it has one to that assignment (then node 2). -/
theorem force_takes_condition (bits : Bool) :
    (fcEnd bits fcText).net.data 2 = .assignment (ln 3) ∧ (fcEnd bits fcText).net.data 3 = .assignment (ln 4) ∧
    nextOf (fcEnd bits fcText) 1 = [2, 4] ∧ (fcEnd bits (unforced fcText)).net.data 2 = .assignment (ln 4) ∧
    nextOf (fcEnd bits (unforced fcText)) 1 = [2, 3] := by
  cases bits <;> decide +kernel

/-- C109 is false for reads: if the assignment is taken as a whole, the assignment of `b` on line 1 (node 0) has an edge to
the `force` of `b` (node 2), which does not read `b`. If bits are resolved it has none. -/
theorem force_reads_signal :
    nextOf (fcEnd false fcText) 0 = [2] ∧ nextOf (fcEnd true fcText) 0 = [] := by
  decide +kernel

end Verif.Props

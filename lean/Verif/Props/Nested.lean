import Verif.Proofs.NestedFrame
import Verif.Proofs.NestedSeg
import Verif.Props.Dataflow
import Verif.Proofs.DataflowUse
import Verif.Proofs.Fork

/-! C108: assignments inside expressions. -/
namespace Verif.Props
open Verif.Model Verif.Spec Verif.Proofs

/-- C108 (partial): a block with assignments inside expressions is analysed exactly like the block with these assignments
taken out, an outer assignment before the ones inside it, where every signal read after an inner assignment counts as read
by the inner one. For all blocks, contexts and states, faults included. Missing: the claim itself, since this is not what
the block means (`nested_read_misplaced`, `nested_value_lost`); and assignments handled segment by segment. -/
theorem nested_exact_partial (c : DfaCtx) (s : Dfa) {st : NStmt} (h : NFits st) :
    s.execN c st = s.exec c (unnest st) ∧ s.runN c st = s.runBlock c (unnest st) := by
  have e := execN_unnest (c := c) st h s
  exact ⟨e, by simp only [Dfa.runN, Dfa.runBlock, e]; rfl⟩

/-- C108 (partial): the drivers recorded for each bit at the end of a block with assignments inside expressions, exactly:
the assignment of the textually last non-blocking write of the bit, if there is one; otherwise the assignments whose
blocking write is the last one of the bit on some path. Every write counts for the assignment it belongs to, outer or
inner. No step faults. For all blocks without assignments in left-hand sides, whose written ranges have at most one
boundary strictly inside each of them. Missing: other ranges; assignments in left-hand sides (`nested_lhs_wrong`); and an
outer assignment counts as made before the inner ones, although its write takes place after theirs. -/
theorem nested_drivers_partial {c : DfaCtx} {net : NetGraph} (h : Ready c net) {st : NStmt} (hf : NFits st)
    (hlhs : NPlainLhs st) (hp : Plain (nWrites st)) (hl : nLive st = true) :
    ∃ s, ({ net := net } : Dfa).runN c st = .ok s ∧
      (∀ sym p d, Drives s.trk s.cur.drv sym p d → ∃ loc, IsAssign s.net d loc) ∧
      ∀ sym p loc, (∃ d, Drives s.trk s.cur.drv sym p d ∧ IsAssign s.net d loc) ↔
        LastAt false (nNba true st) sym p loc ∨
        ((∀ w ∈ nNba true st, ¬ Hits false sym p w) ∧
          ∃ tr, NRuns st tr ∧ LastAt true tr sym p loc) := by
  obtain ⟨s, h1, h2, h3⟩ := block_drivers_partial h (st := unnest st)
    (by rw [unnest_all st hf hlhs]; exact hp) (by rw [unnest_live]; exact hl)
  refine ⟨s, by rw [(nested_exact_partial c _ hf).2]; exact h1, h2, fun sym p loc => ?_⟩
  rw [h3, unnest_nba st hf hlhs]
  simp only [unnest_runs st hf hlhs]

/-- C108 (partial): the same for blocking assignments inside blocking ones, each handled in either way, segment by segment
or by visiting its sides. Other assignments of the block may be non-blocking. Missing: as for `nested_drivers_partial`; and
non-blocking assignments handled segment by segment with assignments inside them (`nested_segment_wrong`). -/
theorem nested_blocking_partial {c : DfaCtx} {net : NetGraph} (h : Ready c net) {st : NStmt} (hb : NBlk st)
    (hlhs : NPlainLhs st) (hp : Plain (nWrites st)) (hl : nLive st = true) :
    ∃ s, ({ net := net } : Dfa).runN c st = .ok s ∧
      (∀ sym p d, Drives s.trk s.cur.drv sym p d → ∃ loc, IsAssign s.net d loc) ∧
      ∀ sym p loc, (∃ d, Drives s.trk s.cur.drv sym p d ∧ IsAssign s.net d loc) ↔
        LastAt false (nNba true st) sym p loc ∨
        ((∀ w ∈ nNba true st, ¬ Hits false sym p w) ∧
          ∃ tr, NRuns st tr ∧ LastAt true tr sym p loc) := by
  obtain ⟨s1, h1, h2, h3, h4, h5⟩ := execN_ok hp st _ (ready_ok h _) hb hlhs (fun w h => h)
  have h6 := h5 _ ready_sem
  have e0 : appN (fun tr => tr = []) st = NRuns st := by
    funext tr
    simp only [appN, eq_iff_iff]
    constructor
    · rintro ⟨_, v, rfl, h, rfl⟩; exact h
    · intro h; exact ⟨[], tr, rfl, h, rfl⟩
  rw [e0] at h6
  obtain ⟨l, e1, e2⟩ := h3.nba
  simp only [List.nil_append] at e1
  subst e1
  obtain ⟨s2, g1, g2, g3, _, g5⟩ := processNba_at hp s1.nba s1 _ h2 h2.nba e2
  refine ⟨s2, by simp only [Dfa.runN, h1, g1], ?_, ?_⟩
  · intro sym p d hd
    exact g2.flow.assign sym p d ((drives_iff g2.trk g2.flow.drv sym p d).1 hd)
  · intro sym p loc
    simp only [drives_iff g2.trk g2.flow.drv]
    rw [g5, h6.defs (by rw [h4]; simp [hl])]

/-- C108, exactly for the outer assignment: among what is visited for an assignment, only the uses before the first inner
assignment reach its node. The rest, whatever it is, adds no edge into the node and no pending read for it: not the value
of the inner assignment, and no signal read after it. For every block before it; the uses before are followed as in C32. -/
theorem nested_outer_closed {c : DfaCtx} {net : NetGraph} (h : Ready c net) {pre : Stmt} {loc l : TextLoc} {b k : Bool}
    {before : List Note} {inner after : EVis} (hi : SideWise inner) (ha : SideWise after)
    (hp : Plain (allWrites (.seq pre (unnest (.expr (.asg loc b (onto before (.asg l k inner after)) .done)))))) :
    ∃ s s' n, ({ net := net } : Dfa).exec c (.seq pre (.assign loc b (.legacy before))) = .ok s ∧
      ({ net := net } : Dfa).execN c
        (.seq (.plain pre) (.expr (.asg loc b (onto before (.asg l k inner after)) .done))) = .ok s' ∧
      s.cur.node = some n ∧ IsAssign s.net (some n) loc ∧
      (∀ a, Joined s'.net a n ↔ Joined s.net a n) ∧
      ∀ x : Pending, x.node = some n → (x ∈ s'.queue ↔ x ∈ s.queue) := by
  have hs : SideWise (.asg loc b (onto before (.asg l k inner after)) .done) :=
    ⟨(sideWise_onto _ _).2 ⟨hi, ha⟩, trivial⟩
  have hnf : NFits (.seq (.plain pre) (.expr (.asg loc b (onto before (.asg l k inner after)) .done))) :=
    ⟨trivial, hs, trivial⟩
  obtain ⟨gs, hgs⟩ : ∃ gs, (takenOut (.asg loc b (onto before (.asg l k inner after)) .done)).2 =
      (loc, b, before) :: gs := by
    simp only [takenOut, takenOut_onto, List.append_nil]
    cases hg : lengthen ((l, k, (takenOut inner).1) :: (takenOut inner).2) (takenOut after).1 ++ (takenOut after).2 with
    | nil => exact ⟨[], by simp [lengthen]⟩
    | cons g gs => exact ⟨lengthen (g :: gs) [], rfl⟩
  have h1o : (takenOut (.asg loc b (onto before (.asg l k inner after)) .done)).1 = [] := rfl
  simp only [unnest, allWrites, hgs, h1o, List.map_nil, allWrites_inTurn, List.nil_append] at hp
  have hcons : groupWrites ((loc, b, before) :: gs) = asgWrites loc b (.legacy before) ++ groupWrites gs := rfl
  rw [hcons] at hp
  obtain ⟨s1, p1, p2, _⟩ := exec_start h (st := pre) hp (fun w hw => List.mem_append_left _ hw)
  obtain ⟨s2, q1, q2, q3, _, _, _, q7⟩ := assign_ok hp p2 loc b (.legacy before)
    (fun w hw => List.mem_append_right _ (List.mem_append_left _ hw))
  obtain ⟨_, n, hn, _, hna⟩ := q7 loc rfl
  have hmem : n ∈ s2.net.g.nodes := q2.flow.node n hn
  have hwg : ∀ w ∈ groupWrites gs, w ∈ allWrites pre ++ (asgWrites loc b (.legacy before) ++ groupWrites gs) :=
    fun w hw => List.mem_append_right _ (List.mem_append_right _ hw)
  obtain ⟨s3, r1, r2, r3, _⟩ := exec_ok hp (inTurn gs) s2 q2 (by rw [allWrites_inTurn]; exact hwg)
  obtain ⟨f1, f2⟩ := inTurn_frozen hp gs q2 hwg hmem r1
  refine ⟨s2, s3, n, by simp only [Dfa.exec, p1, q1], ?_, hn, hna, fun a => ⟨f1.join a, f2.join a n⟩,
    fun x hx => ⟨fun h => f1.queue x h hx, fun h => ?_⟩⟩
  · rw [(nested_exact_partial c _ hnf).1]
    simp only [unnest, Dfa.exec, p1, hgs, h1o, List.map_nil, Dfa.noteRefs, inTurn, q1, r1]
  · obtain ⟨q, e, _⟩ := r3.queue
    rw [e]
    exact List.mem_append_left _ h

/-- Without inner assignments the visit is that of C32 and C34, for both ways to handle an assignment. -/
theorem nested_none (c : DfaCtx) (s : Dfa) (loc : TextLoc) (b : Bool) (a : Asg) :
    s.execN c (.expr (ofAsg loc b a)) = s.exec c (.assign loc b a) := by
  simp only [Dfa.execN, visitE_asg, Dfa.exec]
  cases s.assign c loc b a <;> rfl

/-- After an expression the analysis takes what is written for blocking or non-blocking as in the assignment that was
begun last, in whichever way the assignments are handled. -/
theorem nested_flag {c : DfaCtx} {v : EVis} {node cond : Option Nat} {s s' : Dfa} {blk blk' : Bool}
    (h : s.visitE c node cond blk v = .ok (s', blk')) : blk' = lastBegun blk v :=
  visitE_flag v h

/-- C108 (partial), reads: a signal that an assignment reads before the first assignment inside it is connected to its own
node: to the node leads an edge from every assignment that wrote a bit of it last on some path, and a bit that nothing
wrote is queued for the node. What comes after it in the expression, `rest`, is arbitrary. Signals the assignment has
written itself when the read is noted (`xs`) count as written before. Missing: reads after an inner assignment
(`nested_read_misplaced`), and the limits of `read_linked_partial`. -/
theorem nested_read_linked_partial {c : DfaCtx} {net : NetGraph} (h : Ready c net) {pre : Stmt} {loc : TextLoc} {b : Bool}
    {xs ys : List Note} {r : Ref} {rest : EVis} (hs : SideWise rest) (hl : live pre = true)
    (hp : Plain (allWrites (.seq pre (unnest (.expr (.asg loc b (onto (xs ++ ⟨false, r⟩ :: ys) rest) .done))))))
    (hf : ReadFits (allWrites (.seq pre (unnest (.expr (.asg loc b (onto (xs ++ ⟨false, r⟩ :: ys) rest) .done)))))
      r.sym r.bounds) (ha : r.auto = false) (hk : c.D.kind r.sym ≠ .modportPort) :
    ∃ s' n, ({ net := net } : Dfa).execN c
        (.seq (.plain pre) (.expr (.asg loc b (onto (xs ++ ⟨false, r⟩ :: ys) rest) .done))) = .ok s' ∧
      IsAssign s'.net (some n) loc ∧
      (∀ tr p l, Runs pre tr → InRng r.bounds p → LastAt true (tr ++ asgWrites loc b (.legacy xs)) r.sym p l →
        ∃ k ∈ s'.net.g.nodes, s'.net.data k = .assignment l ∧ Joined s'.net k n) ∧
      ∀ p, InRng r.bounds p → (∀ tr, Runs pre tr → ∀ w ∈ tr ++ asgWrites loc b (.legacy xs), ¬ Hits true r.sym p w) →
        ∃ x ∈ s'.queue, x.sym = r.sym ∧ x.node = some n ∧ InRng x.bounds p := by
  have hnf : NFits (.seq (.plain pre) (.expr (.asg loc b (onto (xs ++ ⟨false, r⟩ :: ys) rest) .done))) :=
    ⟨trivial, ⟨(sideWise_onto _ _).2 hs, trivial⟩, trivial⟩
  obtain ⟨zs, gs, hgs⟩ : ∃ zs gs, (takenOut (.asg loc b (onto (xs ++ ⟨false, r⟩ :: ys) rest) .done)).2 =
      (loc, b, xs ++ ⟨false, r⟩ :: zs) :: gs := by
    simp only [takenOut, takenOut_onto, List.append_nil, List.append_assoc, List.cons_append]
    cases (takenOut rest).2 with
    | nil => exact ⟨ys ++ (takenOut rest).1, [], by simp [lengthen]⟩
    | cons g gs => exact ⟨ys ++ (takenOut rest).1, lengthen (g :: gs) [], rfl⟩
  have h1o : (takenOut (.asg loc b (onto (xs ++ ⟨false, r⟩ :: ys) rest) .done)).1 = [] := rfl
  simp only [unnest, allWrites, hgs, h1o, List.map_nil, allWrites_inTurn, List.nil_append] at hp hf
  generalize hW : allWrites pre ++ groupWrites ((loc, b, xs ++ ⟨false, r⟩ :: zs) :: gs) = W at hp hf
  have hw1 : ∀ w ∈ asgWrites loc b (.legacy (xs ++ ⟨false, r⟩ :: zs)), w ∈ W := fun w hw =>
    hW ▸ List.mem_append_right _ (List.mem_append_left _ hw)
  have hwg : ∀ w ∈ groupWrites gs, w ∈ W := fun w hw => hW ▸ List.mem_append_right _ (List.mem_append_right _ hw)
  obtain ⟨s1, p1, p2, _, _, p5⟩ := exec_start h (st := pre) hp (fun w hw => hW ▸ List.mem_append_left _ hw)
  obtain ⟨s2, n, a1, a2, a3, a4, a5, _⟩ := startAssign_ok p2 loc
  have hw2 : ∀ w ∈ noteWrites loc b (xs ++ ⟨false, r⟩ :: zs), w ∈ W := by rw [noteWrites_eq]; exact hw1
  obtain ⟨s3, d1, d2⟩ := noteRefs_after hp (blocking := b) (loc := loc) (pre := xs) (post := zs) a3 a4
    (fun _ => by rw [a4]; exact a5) hw2 ha hf (a2.sem p2 p5) (live_runs hl)
  obtain ⟨s3', e1, e2, e3, _⟩ := noteRefs_ok hp (blocking := b) (loc := loc) (xs ++ ⟨false, r⟩ :: zs) s2
    a3 (fun _ => by rw [a4]; exact a5) hw2
  rw [d1] at e1; cases e1
  obtain ⟨s4, f1, _, f3, _⟩ := exec_ok hp (inTurn gs) s3 e2 (by rw [allWrites_inTurn]; exact hwg)
  have d3 := d2.mono f3.net f3.queue
  refine ⟨s4, n, ?_, isAssign_mono f3.net (isAssign_mono e3.net a5), fun tr p l ht hb hla => ?_, fun p hb hw => ?_⟩
  · rw [execN_unnest _ hnf]
    simp only [unnest, hgs, h1o, List.map_nil, inTurn, Dfa.exec, p1, Dfa.noteRefs, Dfa.assign, a1, d1, f1]
  · rw [← noteWrites_eq] at hla
    exact d3.defs p _ l hb ⟨tr, ht, rfl⟩ hla
  · obtain ⟨x, hx, x1, x2, _, x3⟩ := d3.queued hk p hb (by
      rintro _ ⟨u, hu, rfl⟩ w hw'
      rw [noteWrites_eq] at hw'
      exact hw u hu w hw')
    exact ⟨x, hx, x1, x2, x3⟩

/-- The state after a statement, and after a whole block. -/
def nestStmt (st : NStmt) : Dfa := (({ net := {} } : Dfa).execN flowCtx st).toOption.getD { net := {} }
def nestEnd (st : NStmt) : Dfa := (({ net := {} } : Dfa).runN flowCtx st).toOption.getD { net := {} }

/-- On line 3 `a = (b = c) + d`, with signals `a` = 0, `b` = 1, `c` = 2 and `d` = 3. -/
def nestOuter : EVis :=
  .asg (ln 3) true (.note (wrt 0 0 7) (.asg (ln 4) true (.note (wrt 1 0 7) (.note (rdt 2 0 7) .done))
    (.note (rdt 3 0 7) .done))) .done

/-- `c = …; d = …; a = (b = c) + d;` -/
def nestSample : NStmt :=
  .seq (.plain (.seq (blk 1 [wrt 2 0 7]) (blk 2 [wrt 3 0 7]))) (.expr nestOuter)

/-- The hypotheses of C108 hold for `c = …; d = …; a = (b = c) + d;`, where `a` is recorded for the outer and `b` for the
inner assignment. -/
example : NFits nestSample ∧ NPlainLhs nestSample ∧ Plain (nWrites nestSample) ∧ nLive nestSample = true ∧
    linesAt (nestEnd nestSample) 0 7 = [3] ∧ linesAt (nestEnd nestSample) 1 7 = [4] := by
  refine ⟨by simp [nestSample, nestOuter, NFits, SideWise, OnlyReads],
    by simp [nestSample, nestOuter, NPlainLhs, PlainLhs, OnlyReads, rdt], ?_, rfl, by decide, by decide⟩
  refine plain_of_two (lo := 0) (mid := 3) (hi := 7) (by decide) (by decide) ?_ (by decide) (by decide)
  intro w hw
  simp [nestSample, nestOuter, nWrites, exprWrites, ownWrites, allWrites, blk, asgWrites, targets, wrt, rdt] at hw
  rcases hw with rfl | rfl | rfl | rfl <;> simp

/-- The hypotheses of `nested_outer_closed` hold for the same block. -/
example : nestOuter = .asg (ln 3) true (onto [wrt 0 0 7] (.asg (ln 4) true (.note (wrt 1 0 7) (.note (rdt 2 0 7) .done))
      (.note (rdt 3 0 7) .done))) .done ∧
    SideWise (.note (wrt 1 0 7) (.note (rdt 2 0 7) .done)) ∧ SideWise (.note (rdt 3 0 7) .done) ∧
    Plain (allWrites (.seq (.seq (blk 1 [wrt 2 0 7]) (blk 2 [wrt 3 0 7])) (unnest (.expr nestOuter)))) := by
  refine ⟨rfl, trivial, trivial, ?_⟩
  refine plain_of_two (lo := 0) (mid := 3) (hi := 7) (by decide) (by decide) ?_ (by decide) (by decide)
  intro w hw
  simp [nestOuter, unnest, takenOut, lengthen, inTurn, allWrites, blk, asgWrites, targets, wrt, rdt] at hw
  rcases hw with rfl | rfl | rfl | rfl <;> simp

/-- On line 3 `a = d + (b = c)`, with signals as in `nestOuter`. -/
def nestLate : EVis :=
  .asg (ln 3) true (onto ([wrt 0 0 7] ++ rdt 3 0 7 :: []) (.asg (ln 4) true (.note (wrt 1 0 7) (.note (rdt 2 0 7) .done))
    .done)) .done

/-- The hypotheses of `nested_read_linked_partial` hold for `d = …; a = d + (b = c);`, where the assignment of `d` (node
0) has an edge to the outer one (node 1) only. -/
example :
    Plain (allWrites (.seq (blk 2 [wrt 3 0 7]) (unnest (.expr nestLate)))) ∧
    ReadFits (allWrites (.seq (blk 2 [wrt 3 0 7]) (unnest (.expr nestLate)))) 3 ⟨0, 7⟩ ∧
    live (blk 2 [wrt 3 0 7]) = true ∧ (rdt 3 0 7).ref.auto = false ∧ flowCtx.D.kind 3 ≠ .modportPort ∧
    nextOf (nestStmt (.seq (.plain (blk 2 [wrt 3 0 7])) (.expr nestLate))) 0 = [1] := by
  refine ⟨?_, ?_, rfl, rfl, by decide, by decide⟩
  · refine plain_of_two (lo := 0) (mid := 3) (hi := 7) (by decide) (by decide) ?_ (by decide) (by decide)
    intro w hw
    simp [nestLate, unnest, takenOut, onto, lengthen, inTurn, allWrites, blk, asgWrites, targets, wrt, rdt] at hw
    rcases hw with rfl | rfl | rfl <;> simp
  · refine .inl fun w hw hs hx p hp => ?_
    simp [nestLate, unnest, takenOut, onto, lengthen, inTurn, allWrites, blk, asgWrites, targets, wrt, rdt] at hw
    rcases hw with rfl | rfl | rfl <;> simp_all

/-- C108 is false: in `c = …; d = …; a = (b = c) + d;` the assignment of `d` (node 1) has an edge to the inner assignment
(node 3) only, not to the outer one (node 2), which reads `d`. The inner one does not. -/
theorem nested_read_misplaced :
    (nestStmt nestSample).net.data 2 = .assignment (ln 3) ∧ (nestStmt nestSample).net.data 3 = .assignment (ln 4) ∧
    nextOf (nestStmt nestSample) 1 = [3] ∧ (nestStmt nestSample).queue = [] := by
  refine ⟨by decide, by decide, by decide, by decide⟩

/-- C108 is false: the outer assignment has no edge from the inner one, whose value it uses, nor from anything else:
`a` depends on nothing. -/
theorem nested_value_lost :
    ∀ n, n < (nestStmt nestSample).net.g.nextNode → 2 ∉ nextOf (nestStmt nestSample) n := by
  decide

/-- C108 is false for assignments in left-hand sides: in `m[i = k] <= x;` (`m` = 0, `i` = 1, `k` = 2, `x` = 3; the
non-blocking assignment is on line 3, the one in the index, a blocking one, on line 4) the driver of `m` is the assignment
in the index, and it is in force at once and not at the end of the time step. -/
theorem nested_lhs_wrong :
    let st := NStmt.expr (.asg (ln 3) false (.asg (ln 4) true (.note (wrt 1 0 7) (.note (rdt 2 0 7) .done))
      (.note (wrt 0 0 7) (.note (rdt 3 0 7) .done))) .done)
    NFits st ∧ ¬ NPlainLhs st ∧ nNba true st = [⟨0, ⟨0, 7⟩, ln 3, false⟩] ∧
    (nestStmt st).nba = [] ∧ linesAt (nestStmt st) 0 7 = [4] := by
  refine ⟨by simp [NFits, SideWise, OnlyReads], ?_, by decide, by decide, by decide⟩
  simp [NPlainLhs, PlainLhs, OnlyReads, wrt]

/-- C108 is false for conditions: in `if (b = c) a = d;` the conditional (node 0) has an edge to the assignment in the
condition (node 1) only, and this one has none to the guarded assignment (node 2), which then depends on neither. It
is the first one of the branch, for which C60 holds without an assignment in the condition. -/
theorem nested_condition_lost :
    let st := NStmt.seq (.plain (.branch false (ln 2)))
      (.seq (.expr (.asg (ln 3) true (.note (wrt 1 0 7) (.note (rdt 2 0 7) .done)) .done))
        (.choose true (.plain (blk 4 [wrt 0 0 7, rdt 3 0 7])) (.plain .skip)))
    let plain := NStmt.seq (.plain (.branch false (ln 2)))
      (.choose true (.plain (blk 4 [wrt 0 0 7, rdt 3 0 7])) (.plain .skip))
    NFits st ∧ NPlainLhs st ∧ (nestStmt st).net.data 0 = .conditional (ln 2) ∧
    (nestStmt st).net.data 2 = .assignment (ln 4) ∧
    nextOf (nestStmt st) 0 = [1] ∧ 2 ∉ nextOf (nestStmt st) 1 ∧
    (nestStmt plain).net.data 1 = .assignment (ln 4) ∧ 1 ∈ nextOf (nestStmt plain) 0 := by
  refine ⟨by simp [NFits, SideWise, OnlyReads], by simp [NPlainLhs, PlainLhs, OnlyReads], ?_⟩
  decide

/-- C108 is false for assignments handled segment by segment: in the non-blocking `{e, a} <= {d, f(b = c)}` (`a` = 0,
`b` = 1, `c` = 2, `d` = 3, `e` = 4), whose segment for `a` comes first, the write of `a` waits for the end of the time step
and the write of `e` takes place at once: the blocking assignment in the first segment makes the rest of the outer one
blocking. -/
theorem nested_segment_wrong :
    let st := NStmt.expr (.aligned false (.seg (ln 3) [(wrt 0 0 7).ref]
        (.aligned true (.seg (ln 4) [(wrt 1 0 7).ref] (.src (.lsp (rdt 2 0 7).ref) .done) .done) .done)
      (.seg (ln 3) [(wrt 4 0 7).ref] (.src (.lsp (rdt 3 0 7).ref) .done) .done)) .done)
    (nestStmt st).nba.map (·.sym) = [0] ∧ linesAt (nestStmt st) 4 7 = [3] ∧
    (exprWrites (.aligned false (.seg (ln 3) [(wrt 0 0 7).ref]
        (.aligned true (.seg (ln 4) [(wrt 1 0 7).ref] (.src (.lsp (rdt 2 0 7).ref) .done) .done) .done)
      (.seg (ln 3) [(wrt 4 0 7).ref] (.src (.lsp (rdt 3 0 7).ref) .done) .done)) .done)).map
        (fun w => (w.sym, w.blocking)) = [(0, false), (1, true), (4, false)] := by
  refine ⟨by decide, by decide, by decide⟩

/-- In `{e, a} = {d, f(b = c)}` (as above, blocking), handled segment by segment, with a non-blocking assignment after it,
the hypotheses of `nested_blocking_partial` hold. -/
def nestSegs : NStmt :=
  .seq (.expr (.aligned true (.seg (ln 3) [(wrt 0 0 7).ref]
      (.aligned true (.seg (ln 4) [(wrt 1 0 7).ref] (.src (.lsp (rdt 2 0 7).ref) .done) .done) .done)
    (.seg (ln 3) [(wrt 4 0 7).ref] (.src (.lsp (rdt 3 0 7).ref) .done) .done)) .done)) (.plain (nbl 5 [wrt 5 0 7]))

example : NBlk nestSegs ∧ NPlainLhs nestSegs ∧ Plain (nWrites nestSegs) ∧ nLive nestSegs = true ∧
    linesAt (nestEnd nestSegs) 0 7 = [3] ∧ linesAt (nestEnd nestSegs) 1 7 = [4] ∧
    linesAt (nestEnd nestSegs) 4 7 = [3] ∧ linesAt (nestEnd nestSegs) 5 7 = [5] := by
  refine ⟨by simp [nestSegs, NBlk, AllBlk, OnlyReads], by simp [nestSegs, NPlainLhs, PlainLhs, OnlyReads], ?_, rfl,
    by decide, by decide, by decide, by decide⟩
  refine plain_of_two (lo := 0) (mid := 3) (hi := 7) (by decide) (by decide) ?_ (by decide) (by decide)
  intro w hw
  simp [nestSegs, nWrites, exprWrites, ownWrites, allWrites, nbl, asgWrites, targets, wrt] at hw
  rcases hw with rfl | rfl | rfl | rfl <;> simp

/-- The hypothesis of `nested_flag` holds for `a <= (b = c) + d` handled by visiting its sides: what is written after it
would be taken for blocking. -/
example : ∃ s, ({ net := {} } : Dfa).visitE flowCtx none none true (.asg (ln 3) false (.note (wrt 0 0 7)
    (.asg (ln 4) true (.note (wrt 1 0 7) (.note (rdt 2 0 7) .done)) (.note (rdt 3 0 7) .done))) .done) =
      .ok (s, true) := ⟨_, rfl⟩

end Verif.Props

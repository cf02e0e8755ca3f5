import Verif.Proofs.Fork

/-! C87: parallel blocks. -/
namespace Verif.Props
open Verif.Model Verif.Spec Verif.Proofs

/-- The state after a statement and a parallel block, started on a built graph. -/
theorem fork_start {c : DfaCtx} {net : NetGraph} (h : Ready c net) {st : Stmt} {bs : List Stmt} {W : List Wr}
    (hW : Plain W) (h1 : ∀ w ∈ allWrites st, w ∈ W) (h2 : ∀ b ∈ bs, ∀ w ∈ allWrites b, w ∈ W) :
    ∃ s1 s2, ({ net := net } : Dfa).exec c st = .ok s1 ∧ s1.fork c bs = .ok s2 ∧ Ok c W s2 ∧
      Le (nbaWrites true st ++ forkNba (live st) bs) { net := net } s2 ∧
      s2.cur.reach = bs.all (fun b => live st && live b) ∧
      (s2.cur.reach = true → bs ≠ [] → ∀ y p loc,
        (∃ d, DAt s2.trk s2.cur.drv y p d ∧ IsAssign s2.net d loc) ↔
          ∃ b ∈ bs, ∃ t v, Runs st t ∧ Runs b v ∧ LastAt true (t ++ v) y p loc) := by
  obtain ⟨s1, e1, ok1, le1, r1, sem1⟩ := exec_start h hW h1
  have okT : Ok c W ({ s1 with cur := {} } : Dfa) :=
    ⟨ok1.net, ok1.trk, ⟨drvOk_empty _ _, fun _ _ _ h => absurd h dAt_empty, by simp, by simp⟩, ok1.vars, ok1.ext,
      ok1.nba⟩
  have semT : Sem ({ s1 with cur := {} } : Dfa) (fun tr => tr = []) := by
    refine ⟨⟨fun _ => ⟨[], rfl⟩, fun _ => rfl⟩, fun _ y p loc => ⟨?_, ?_⟩⟩
    · rintro ⟨d, h, _⟩; exact absurd h dAt_empty
    · rintro ⟨_, rfl, h⟩
      obtain ⟨v, hv, _⟩ := lastAt_hits h
      cases hv
  obtain ⟨s2, e2, ok2, le2, r2, sem2⟩ := forkFrom_ok hW (start := s1.cur) bs _ okT ok1.flow h2
  refine ⟨s1, s2, e1, e2, ok2, ?_, ?_, fun hr _ y p loc => ?_⟩
  · rw [r1] at le2
    exact le1.trans (s3 := s2) ⟨le2.net, le2.trk, le2.queue, le2.nba⟩ ok1
  · rw [r2, r1]; rfl
  · rw [(sem2 _ _ hr semT sem1).defs hr y p loc]
    constructor
    · rintro ⟨tr, rfl | ⟨b, hb, t, v, ht, hv, rfl⟩, hl⟩
      · obtain ⟨v, hv, _⟩ := lastAt_hits hl
        cases hv
      · exact ⟨b, hb, t, v, ht, hv, hl⟩
    · rintro ⟨b, hb, t, v, ht, hv, hl⟩
      exact ⟨t ++ v, .inr ⟨b, hb, t, v, ht, hv, rfl⟩, hl⟩

/-- The end of a parallel block is reachable if the statement before it can complete and so can every
branch. -/
theorem fork_reachable {c : DfaCtx} {net : NetGraph} (h : Ready c net) {st : Stmt} {bs : List Stmt}
    (hp : Plain (allWrites st ++ bs.flatMap allWrites)) (hne : bs ≠ []) :
    ∃ s1 s2, ({ net := net } : Dfa).exec c st = .ok s1 ∧ s1.fork c bs = .ok s2 ∧
      (s2.cur.reach = true ↔ ∃ tr, ForkRuns st bs tr) := by
  obtain ⟨s1, s2, e1, e2, x1, x2, hr, x3⟩ := fork_start h (bs := bs) hp
    (fun w hw => List.mem_append_left _ hw)
    (fun b hb w hw => List.mem_append_right _ (List.mem_flatMap.2 ⟨b, hb, hw⟩))
  refine ⟨s1, s2, e1, e2, ?_⟩
  rw [hr, List.all_eq_true]
  constructor
  · intro hl
    have hb : ∃ vs, RunsAll bs vs := by
      clear hne hp e2 hr x1 x2 x3
      induction bs with
      | nil => exact ⟨[], .nil⟩
      | cons b bs ih =>
        obtain ⟨vs, hvs⟩ := ih fun x hx => hl x (by simp [hx])
        obtain ⟨v, hv⟩ := live_runs (by simpa using (Bool.and_eq_true_iff.1 (hl b (by simp))).2)
        exact ⟨v :: vs, .cons hv hvs⟩
    obtain ⟨b, bs', rfl⟩ := List.exists_cons_of_ne_nil hne
    obtain ⟨t, ht⟩ := live_runs (Bool.and_eq_true_iff.1 (hl b (by simp))).1
    obtain ⟨vs, hvs⟩ := hb
    obtain ⟨w, hw⟩ := shuffle_exists vs
    exact ⟨t ++ w, t, vs, w, ht, hvs, hw, rfl⟩
  · rintro ⟨_, t, vs, w, ht, hvs, _, rfl⟩ b hb
    obtain ⟨v, _, hv⟩ := (runsAll_mem hvs).2 b hb
    simp [runs_live ht, runs_live hv]

/-- The drivers recorded for each bit after a parallel block at the end of a procedural block, exactly: the
assignment of the textually last non-blocking write of the bit, if there is one; otherwise the assignments
whose blocking write is the last one of the bit on a path through the statement and one of the branches. -/
theorem fork_drivers {c : DfaCtx} {net : NetGraph} (h : Ready c net) {st : Stmt} {bs : List Stmt}
    (hp : Plain (allWrites st ++ bs.flatMap allWrites)) (hne : bs ≠ []) (hex : ∃ tr, ForkRuns st bs tr) :
    ∃ s, ({ net := net } : Dfa).runFork c st bs = .ok s ∧
      (∀ sym p d, Drives s.trk s.cur.drv sym p d → ∃ loc, IsAssign s.net d loc) ∧
      ∀ sym p loc, (∃ d, Drives s.trk s.cur.drv sym p d ∧ IsAssign s.net d loc) ↔
        LastAt false (nbaWrites true st ++ forkNba true bs) sym p loc ∨
        ((∀ w ∈ nbaWrites true st ++ forkNba true bs, ¬ Hits false sym p w) ∧
          ∃ b ∈ bs, ∃ t v, Runs st t ∧ Runs b v ∧ LastAt true (t ++ v) sym p loc) := by
  obtain ⟨_, t, vs, w, ht, hvs, _, _⟩ := hex
  have hl := runs_live ht
  obtain ⟨s1, s2, e1, e2, ok2, le2, hr, hd⟩ := fork_start h (bs := bs) hp
    (fun w hw => List.mem_append_left _ hw)
    (fun b hb w hw => List.mem_append_right _ (List.mem_flatMap.2 ⟨b, hb, hw⟩))
  rw [hl] at le2
  have hr' : s2.cur.reach = true := by
    rw [hr, List.all_eq_true]
    intro b hb
    obtain ⟨v, _, hv⟩ := (runsAll_mem hvs).2 b hb
    simp [hl, runs_live hv]
  obtain ⟨l, q1, q2⟩ := le2.nba
  simp only [List.nil_append] at q1
  subst q1
  obtain ⟨s3, g1, g2, g3, _, g5⟩ := processNba_at hp s2.nba s2 _ ok2 ok2.nba q2
  refine ⟨s3, by simp only [Dfa.runFork, e1, e2, g1], ?_, ?_⟩
  · intro sym p d hd
    exact g2.flow.assign sym p d ((drives_iff g2.trk g2.flow.drv sym p d).1 hd)
  · intro sym p loc
    simp only [drives_iff g2.trk g2.flow.drv]
    rw [g5, hd hr' hne]

/-- C87 (partial): whatever the order in which the branches of a parallel block run, the blocking assignment
that wrote a bit last is recorded as a driver of the bit, if no non-blocking assignment writes it. Missing:
the converse, which is false (`fork_overwritten_kept`), and reads inside the branches, which miss what another
branch writes (`fork_read_lost`). -/
theorem fork_sound_partial {c : DfaCtx} {net : NetGraph} (h : Ready c net) {st : Stmt} {bs : List Stmt}
    (hp : Plain (allWrites st ++ bs.flatMap allWrites)) (hne : bs ≠ []) {tr : List Wr} (hr : ForkRuns st bs tr) :
    ∃ s, ({ net := net } : Dfa).runFork c st bs = .ok s ∧
      ∀ sym p loc, (∀ w ∈ allWrites st ++ bs.flatMap allWrites, ¬ Hits false sym p w) →
        LastAt true tr sym p loc → ∃ d, Drives s.trk s.cur.drv sym p d ∧ IsAssign s.net d loc := by
  obtain ⟨s, h1, _, h3⟩ := fork_drivers h hp hne ⟨tr, hr⟩
  refine ⟨s, h1, fun sym p loc hno hl => (h3 sym p loc).2 (.inr ⟨fun w hw => hno w ?_, fork_last hne hr hl⟩)⟩
  rcases List.mem_append.1 hw with hw | hw
  · exact List.mem_append_left _ (nbaWrites_sub hw).1
  · obtain ⟨b, hb, hw⟩ := List.mem_flatMap.1 hw
    exact List.mem_append_right _ (List.mem_flatMap.2 ⟨b, hb, (nbaWrites_sub hw).1⟩)

/-- Nothing else is recorded than definitions that reach the end along one of the branches alone. -/
theorem fork_only {c : DfaCtx} {net : NetGraph} (h : Ready c net) {st : Stmt} {bs : List Stmt}
    (hp : Plain (allWrites st ++ bs.flatMap allWrites)) (hne : bs ≠ []) (hex : ∃ tr, ForkRuns st bs tr)
    (hb : ∀ w ∈ allWrites st ++ bs.flatMap allWrites, w.blocking = true) :
    ∃ s, ({ net := net } : Dfa).runFork c st bs = .ok s ∧
      ∀ sym p loc, (∃ d, Drives s.trk s.cur.drv sym p d ∧ IsAssign s.net d loc) →
        ∃ b ∈ bs, ∃ tr, ForkRuns st [b] tr ∧ LastAt true tr sym p loc := by
  obtain ⟨s, h1, _, h3⟩ := fork_drivers h hp hne hex
  refine ⟨s, h1, fun sym p loc hd => ?_⟩
  rcases (h3 sym p loc).1 hd with hl | ⟨_, b, hb', t, v, ht, hv, hl⟩
  · obtain ⟨w, hw, hh⟩ := lastAt_hits hl
    have hh := hh.1
    have : w ∈ allWrites st ++ bs.flatMap allWrites := by
      rcases List.mem_append.1 hw with hw | hw
      · exact List.mem_append_left _ (nbaWrites_sub hw).1
      · obtain ⟨b, hb, hw⟩ := List.mem_flatMap.1 hw
        exact List.mem_append_right _ (List.mem_flatMap.2 ⟨b, hb, (nbaWrites_sub hw).1⟩)
    have := hb w this
    rw [hh] at this; cases this
  · exact ⟨b, hb', t ++ v, ⟨t, [v], v, ht, .cons hv .nil, shuffle_one v, rfl⟩, hl⟩

/-- The state after a statement and a parallel block. -/
def forkEnd (st : Stmt) (bs : List Stmt) : Dfa :=
  (({ net := {} } : Dfa).runFork flowCtx st bs).toOption.getD { net := {} }

/-- `a = …; fork a[3:0] = …; begin a[7:4] = …; b = …; end join`. The hypotheses are met; the parallel block
can write the halves of `a` in either order, and both assignments are recorded. -/
example :
    let st := blk 1 [wrt 0 0 7]
    let bs := [blk 2 [wrt 0 0 3], .seq (blk 3 [wrt 0 4 7]) (blk 4 [wrt 1 0 7])]
    Plain (allWrites st ++ bs.flatMap allWrites) ∧ bs ≠ [] ∧
    (∃ tr, ForkRuns st bs tr ∧ LastAt true tr 0 0 (ln 2) ∧ LastAt true tr 0 7 (ln 3)) ∧
    linesAt (forkEnd st bs) 0 0 = [2, 1] ∧ linesAt (forkEnd st bs) 0 7 = [1, 3] ∧
    linesAt (forkEnd st bs) 1 0 = [4] := by
  refine ⟨?_, by simp, ⟨[⟨0, ⟨0, 7⟩, ln 1, true⟩, ⟨0, ⟨4, 7⟩, ln 3, true⟩, ⟨0, ⟨0, 3⟩, ln 2, true⟩,
      ⟨1, ⟨0, 7⟩, ln 4, true⟩], ⟨_, _, [⟨0, ⟨4, 7⟩, ln 3, true⟩, ⟨0, ⟨0, 3⟩, ln 2, true⟩, ⟨1, ⟨0, 7⟩, ln 4, true⟩],
      .assign _ _ _, .cons (.assign _ _ _) (.cons (.seq (.assign _ _ _) (.assign _ _ _)) .nil), ?_, by rfl⟩, ?_, ?_⟩,
    by decide, by decide, by decide⟩
  · refine plain_of_two (lo := 0) (mid := 3) (hi := 7) (by decide) (by decide) ?_ (by decide) (by decide)
    intro w hw
    simp only [allWrites, blk, asgWrites, targets, wrt] at hw
    simp [asgWrites, targets, allWrites] at hw
    rcases hw with rfl | rfl | rfl | rfl <;> simp
  · exact .step (pre := [_]) (post := []) (.step (pre := []) (.step (pre := [_]) (post := []) (.done (by decide))))
  · exact ⟨[⟨0, ⟨0, 7⟩, ln 1, true⟩, ⟨0, ⟨4, 7⟩, ln 3, true⟩], ⟨0, ⟨0, 3⟩, ln 2, true⟩, [⟨1, ⟨0, 7⟩, ln 4, true⟩], by rfl,
      ⟨rfl, rfl, by simp [InRng]⟩, rfl, by simp [Hits]⟩
  · exact ⟨[⟨0, ⟨0, 7⟩, ln 1, true⟩], ⟨0, ⟨4, 7⟩, ln 3, true⟩, [⟨0, ⟨0, 3⟩, ln 2, true⟩, ⟨1, ⟨0, 7⟩, ln 4, true⟩], by rfl,
      ⟨rfl, rfl, by simp [InRng]⟩, rfl, by simp [Hits, InRng]⟩

/-- The converse is false: in `a = …; fork a = …; b = …; join` the first assignment of `a` is recorded as a
driver, although the second one overwrites it in every order of the branches. -/
theorem fork_overwritten_kept :
    let st := blk 1 [wrt 0 0 7]
    let bs := [blk 2 [wrt 0 0 7], blk 3 [wrt 1 0 7]]
    linesAt (forkEnd st bs) 0 0 = [2, 1] ∧ ∀ tr, ForkRuns st bs tr → ¬ LastAt true tr 0 0 (ln 1) := by
  refine ⟨by decide, ?_⟩
  rintro _ ⟨t, vs, w, ht, hvs, hs, rfl⟩ ⟨pre, x, post, he, hx, hl, hpost⟩
  cases ht
  cases hvs with
  | cons h1 h2 =>
  cases h1
  have h2' : (⟨0, ⟨0, 7⟩, ln 2, true⟩ : Wr) ∈ w := (shuffle_mem hs _).2 ⟨_, List.mem_cons_self, by decide⟩
  have hmem : ∀ z ∈ w, z.loc ≠ ln 1 := by
    intro z hz
    obtain ⟨l, hl, hz⟩ := (shuffle_mem hs z).1 hz
    cases h2 with
    | cons h2 h3 =>
    cases h2; cases h3
    simp only [List.mem_cons, List.not_mem_nil, or_false] at hl
    rcases hl with rfl | rfl
    all_goals
      simp only [asgWrites, targets, wrt] at hz
      simp at hz
      subst hz
      decide
  simp only [asgWrites, targets, wrt] at he
  cases pre with
  | nil =>
    simp at he
    obtain ⟨rfl, rfl⟩ := he
    exact hpost _ h2' ⟨rfl, rfl, by simp [InRng]⟩
  | cons a pre =>
    simp at he
    exact hmem x (by rw [he.2]; simp) hl

/-- A read inside a branch misses what another branch writes: in `a = 0; fork a = x; y = a; join` the
assignment of `y` (node 2) is linked to the first assignment of `a` (node 0) and not to the second (node 1),
nor is its read queued, although the second may come before it. -/
theorem fork_read_lost :
    let st := blk 1 [wrt 0 0 7]
    let bs := [blk 2 [wrt 0 0 7, rdt 2 0 7], blk 3 [wrt 1 0 7, rdt 0 0 7]]
    let s := forkEnd st bs
    s.net.data 0 = .assignment (ln 1) ∧ s.net.data 1 = .assignment (ln 2) ∧ s.net.data 2 = .assignment (ln 3) ∧
    nextOf s 0 = [2] ∧ nextOf s 1 = [3] ∧ s.net.data 3 = .merge ∧
    s.queue = [⟨2, ⟨0, 7⟩, some 1, .none⟩] ∧
    ForkRuns st bs [⟨0, ⟨0, 7⟩, ln 1, true⟩, ⟨0, ⟨0, 7⟩, ln 2, true⟩, ⟨1, ⟨0, 7⟩, ln 3, true⟩] := by
  refine ⟨by rfl, by rfl, by rfl, by decide, by decide, by rfl, by decide, ?_⟩
  exact ⟨_, _, _, .assign _ _ _, .cons (.assign _ _ _) (.cons (.assign _ _ _) .nil),
    .step (pre := []) (.step (pre := [_]) (post := []) (.done (by decide))), by rfl⟩

/-- A branch that cannot complete: the end of the parallel block is unreachable. -/
example : ∃ s1 s2, ({ net := {} } : Dfa).exec flowCtx (blk 1 [wrt 0 0 7]) = .ok s1 ∧
    s1.fork flowCtx [blk 2 [wrt 1 0 7], .dead] = .ok s2 ∧ s2.cur.reach = false :=
  ⟨_, _, rfl, rfl, rfl⟩

end Verif.Props

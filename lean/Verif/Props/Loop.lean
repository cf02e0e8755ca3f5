import Verif.Model.Loop
import Verif.Spec.Loop
import Verif.Proofs.Fork
import Verif.Props.Build

/-! C88: loops. -/
namespace Verif.Props
open Verif.Model Verif.Spec Verif.Proofs

theorem inOrder_runs {its : List Stmt} : ∀ {l : List Wr}, Runs (inOrder its) l ↔ RunsInOrder its l := by
  induction its with
  | nil =>
    intro l
    constructor
    · intro h; cases h; exact .nil
    · intro h; cases h; exact .skip
  | cons s ss ih =>
    intro l
    constructor
    · intro h; cases h with | seq h1 h2 => exact .cons h1 (ih.1 h2)
    · intro h; cases h with | cons h1 h2 => exact .seq h1 (ih.2 h2)

theorem inOrder_writes {its : List Stmt} : allWrites (inOrder its) = its.flatMap allWrites := by
  induction its with
  | nil => rfl
  | cons s ss ih => simp [inOrder, allWrites, ih]

/-- A procedural block with a statement, a loop with constant bounds, and another statement. -/
abbrev staticBlock (pre : Stmt) (its : List Stmt) (post : Stmt) : Stmt := .seq pre (.seq (staticLoop its) post)

/-- A procedural block with a statement, a loop that is not unrolled, and another statement. -/
abbrev openBlock (pre : Stmt) (cond : List Ref) (body post : Stmt) : Stmt := .seq pre (.seq (openLoop cond body) post)

theorem staticBlock_runs {pre post : Stmt} {its : List Stmt} {tr : List Wr} :
    Runs (staticBlock pre its post) tr ↔ LoopRuns pre its post tr ∨ LoopRuns pre [] post tr := by
  constructor
  · intro h
    cases h with
    | seq h1 h2 =>
    cases h2 with
    | seq h2 h3 =>
    cases h2 with
    | first h2 => cases h2; exact .inr ⟨_, [], _, h1, .nil, h3, rfl⟩
    | second h2 => exact .inl ⟨_, _, _, h1, inOrder_runs.1 h2, h3, rfl⟩
  · rintro (⟨t, l, v, h1, h2, h3, rfl⟩ | ⟨t, l, v, h1, h2, h3, rfl⟩)
    · exact .seq h1 (.seq (.second (inOrder_runs.2 h2)) h3)
    · cases h2
      exact .seq h1 (.seq (.first .skip) h3)

theorem openBlock_runs {pre post body : Stmt} {cond : List Ref} {tr : List Wr} :
    Runs (openBlock pre cond body post) tr ↔ LoopRuns pre [] post tr := by
  constructor
  · intro h
    cases h with
    | seq h1 h2 =>
    cases h2 with
    | seq h2 h3 =>
    cases h2 with
    | seq h2 h4 =>
    cases h2
    cases h4 with
    | first h4 => cases h4; exact ⟨_, [], _, h1, .nil, h3, rfl⟩
    | second h4 => cases h4 with | seq _ h5 => cases h5
  · rintro ⟨t, l, v, h1, h2, h3, rfl⟩
    cases h2
    have := Runs.seq h1 (.seq (.seq (.reads cond) (.first (f := true) (t := .seq body .dead) .skip)) h3)
    simpa [openBlock, openLoop] using this

/-- The blocking drivers recorded after a loop with constant bounds, exactly: the assignments that are last to
write the bit when all iterations run in order, and those that would be last if none ran. -/
theorem static_loop_drivers {c : DfaCtx} {net : NetGraph} (h : Ready c net) {pre post : Stmt} {its : List Stmt}
    (hp : Plain (allWrites pre ++ its.flatMap allWrites ++ allWrites post)) (hl : live pre = true)
    (hl' : live post = true) :
    ∃ s, ({ net := net } : Dfa).runBlock c (staticBlock pre its post) = .ok s ∧
      (∀ sym p d, Drives s.trk s.cur.drv sym p d → ∃ loc, IsAssign s.net d loc) ∧
      ∀ sym p loc,
        (∀ w ∈ allWrites pre ++ its.flatMap allWrites ++ allWrites post, ¬ Hits false sym p w) →
        ((∃ d, Drives s.trk s.cur.drv sym p d ∧ IsAssign s.net d loc) ↔
          ∃ tr, (LoopRuns pre its post tr ∨ LoopRuns pre [] post tr) ∧ LastAt true tr sym p loc) := by
  have he : allWrites (staticBlock pre its post) = allWrites pre ++ its.flatMap allWrites ++ allWrites post := by
    simp [staticLoop, allWrites, inOrder_writes]
  rw [← he] at hp ⊢
  obtain ⟨s, h1, h2, h3⟩ := block_drivers_partial h hp (by simp [live, hl, hl', staticLoop])
  refine ⟨s, h1, h2, fun sym p loc hno => ?_⟩
  rw [h3 sym p loc]
  constructor
  · rintro (hx | ⟨_, tr, hr, hla⟩)
    · obtain ⟨w, hw, hh⟩ := lastAt_hits hx
      exact absurd hh (hno w (nbaWrites_sub hw).1)
    · exact ⟨tr, staticBlock_runs.1 hr, hla⟩
  · rintro ⟨tr, hr, hla⟩
    exact .inr ⟨fun w hw => hno w (nbaWrites_sub hw).1, tr, staticBlock_runs.2 hr, hla⟩

/-- C88 (partial), loops with constant bounds: the assignment that wrote a bit last in a run of the block is
recorded as a driver of the bit. Missing: the converse, which is false (`static_loop_keeps`). -/
theorem static_loop_sound_partial {c : DfaCtx} {net : NetGraph} (h : Ready c net) {pre post : Stmt}
    {its : List Stmt} (hp : Plain (allWrites pre ++ its.flatMap allWrites ++ allWrites post)) {tr : List Wr}
    (hr : LoopRuns pre its post tr) :
    ∃ s, ({ net := net } : Dfa).runBlock c (staticBlock pre its post) = .ok s ∧
      ∀ sym p loc,
        (∀ w ∈ allWrites pre ++ its.flatMap allWrites ++ allWrites post, ¬ Hits false sym p w) →
        LastAt true tr sym p loc → ∃ d, Drives s.trk s.cur.drv sym p d ∧ IsAssign s.net d loc := by
  have hr' := hr
  obtain ⟨t, l, v, h1, h2, h3, rfl⟩ := hr
  obtain ⟨s, g1, _, g3⟩ := static_loop_drivers h hp (runs_live h1) (runs_live h3)
  exact ⟨s, g1, fun sym p loc hno hla => (g3 sym p loc hno).2 ⟨_, .inl hr', hla⟩⟩

/-- What is carried from one iteration to a later one: a read in an iteration is linked to every assignment that
is last, before the iteration, to write a bit of what is read. `Use` says which reads an iteration makes. -/
theorem static_loop_carried {c : DfaCtx} {net : NetGraph} (h : Ready c net) {pre it : Stmt} {l1 l2 : List Stmt}
    (hp : Plain (allWrites pre ++ (l1 ++ it :: l2).flatMap allWrites)) {who : NodeData} {r : Ref}
    {Q : List Wr → Prop}
    (hu : Use (fun tr => ∃ t l, Runs pre t ∧ RunsInOrder l1 l ∧ tr = t ++ l) it who r Q) (hq : ∃ tr, Q tr)
    (hf : ReadFits (allWrites pre ++ (l1 ++ it :: l2).flatMap allWrites) r.sym r.bounds) :
    ∃ s n, ({ net := net } : Dfa).exec c (.seq pre (staticLoop (l1 ++ it :: l2))) = .ok s ∧ n ∈ s.net.g.nodes ∧
      s.net.data n = who ∧
      ∀ tr p loc, Q tr → InRng r.bounds p → LastAt true tr r.sym p loc → FedBy s.net loc n := by
  have he : allWrites (.seq pre (staticLoop (l1 ++ it :: l2))) =
      allWrites pre ++ (l1 ++ it :: l2).flatMap allWrites := by
    simp [staticLoop, allWrites, inOrder_writes]
  have key : ∀ (l1 : List Stmt) (P : List Wr → Prop),
      Use (fun tr => ∃ t l, P t ∧ RunsInOrder l1 l ∧ tr = t ++ l) it who r Q → Use P (inOrder (l1 ++ it :: l2)) who r Q := by
    intro l1
    induction l1 with
    | nil =>
      intro P hu
      refine .left ?_
      have : (fun tr => ∃ t l, P t ∧ RunsInOrder [] l ∧ tr = t ++ l) = P := by
        funext tr
        refine propext ⟨?_, fun hx => ⟨tr, [], hx, .nil, by simp⟩⟩
        rintro ⟨t, l, ht, hl, rfl⟩
        cases hl
        simpa using ht
      rwa [this] at hu
    | cons x xs ih =>
      intro P hu
      refine .right (ih _ ?_)
      have : (fun tr => ∃ t l, P t ∧ RunsInOrder (x :: xs) l ∧ tr = t ++ l) =
          fun tr => ∃ t l, After P x t ∧ RunsInOrder xs l ∧ tr = t ++ l := by
        funext tr
        refine propext ⟨?_, ?_⟩
        · rintro ⟨t, l, ht, hl, rfl⟩
          cases hl with
          | @cons _ _ u v hu hv => exact ⟨t ++ u, v, ⟨t, u, ht, hu, rfl⟩, hv, by simp⟩
        · rintro ⟨_, l, ⟨t, u, ht, hu, rfl⟩, hv, rfl⟩
          exact ⟨t, u ++ l, ht, .cons hu hv, by simp⟩
      rwa [this] at hu
  have hpre : After Start pre = Runs pre := by
    funext tr
    refine propext ⟨?_, fun hx => ⟨[], tr, rfl, hx, rfl⟩⟩
    rintro ⟨_, v, rfl, hv, rfl⟩
    exact hv
  have hu' : Use Start (.seq pre (staticLoop (l1 ++ it :: l2))) who r Q :=
    .right (.second (key l1 _ (by rw [hpre]; exact hu)))
  obtain ⟨s, n, g1, g2, _, g4, g5⟩ := use_ok hp hu' hf hq _ (ready_ok h _) (by rw [he]; exact fun w h => h) ready_sem
  exact ⟨s, n, g1, g2, g4, fun tr p loc ht hpb hla => g5.defs p tr loc hpb ht hla⟩

/-- The blocking drivers recorded after a loop that is not unrolled, exactly: those recorded without the loop. -/
theorem open_loop_drivers {c : DfaCtx} {net : NetGraph} (h : Ready c net) {pre body post : Stmt} {cond : List Ref}
    (hp : Plain (allWrites pre ++ allWrites body ++ allWrites post)) (hl : live pre = true)
    (hl' : live post = true) :
    ∃ s, ({ net := net } : Dfa).runBlock c (openBlock pre cond body post) = .ok s ∧
      (∀ sym p d, Drives s.trk s.cur.drv sym p d → ∃ loc, IsAssign s.net d loc) ∧
      ∀ sym p loc, (∀ w ∈ allWrites pre ++ allWrites body ++ allWrites post, ¬ Hits false sym p w) →
        ((∃ d, Drives s.trk s.cur.drv sym p d ∧ IsAssign s.net d loc) ↔
          ∃ t v, Runs pre t ∧ Runs post v ∧ LastAt true (t ++ v) sym p loc) := by
  have he : allWrites (openBlock pre cond body post) = allWrites pre ++ allWrites body ++ allWrites post := by
    simp [openLoop, allWrites]
  rw [← he] at hp ⊢
  obtain ⟨s, h1, h2, h3⟩ := block_drivers_partial h hp (by simp [live, hl, hl', openLoop])
  refine ⟨s, h1, h2, fun sym p loc hno => ?_⟩
  rw [h3 sym p loc]
  constructor
  · rintro (hx | ⟨_, tr, hr, hla⟩)
    · obtain ⟨w, hw, hh⟩ := lastAt_hits hx
      exact absurd hh (hno w (nbaWrites_sub hw).1)
    · obtain ⟨t, l, v, a1, a2, a3, rfl⟩ := openBlock_runs.1 hr
      cases a2
      exact ⟨t, v, a1, a3, hla⟩
  · rintro ⟨t, v, a1, a3, hla⟩
    exact .inr ⟨fun w hw => hno w (nbaWrites_sub hw).1, _, openBlock_runs.2 ⟨t, [], v, a1, .nil, a3, rfl⟩, hla⟩

theorem repeats_writes {body : Stmt} {l : List Wr} (h : Repeats body l) : ∀ w ∈ l, w ∈ allWrites body := by
  induction h with
  | none => intro w hw; cases hw
  | again h1 _ ih =>
    intro w hw
    rcases List.mem_append.1 hw with hw | hw
    · exact runs_all h1 w hw
    · exact ih w hw

theorem lastAt_between {b : Bool} {sym : Nat} {p : Int} {loc : TextLoc} {l v : List Wr}
    (hl : ∀ w ∈ l, ¬ Hits b sym p w) (t : List Wr) (h : LastAt b (t ++ (l ++ v)) sym p loc) :
    LastAt b (t ++ v) sym p loc := by
  induction t with
  | nil =>
    induction l with
    | nil => exact h
    | cons x l ih =>
      rcases lastAt_cons.1 h with h | ⟨_, h, _⟩
      · exact ih (fun w hw => hl w (List.mem_cons_of_mem _ hw)) h
      · exact absurd h (hl x List.mem_cons_self)
  | cons x t ih =>
    rcases lastAt_cons.1 h with h | ⟨h1, h2, h3⟩
    · exact lastAt_cons.2 (.inl (ih h))
    · refine lastAt_cons.2 (.inr ⟨fun w hw => h1 w ?_, h2, h3⟩)
      rcases List.mem_append.1 hw with hw | hw
      · exact List.mem_append_left _ hw
      · exact List.mem_append_right _ (List.mem_append_right _ hw)

/-- C88 (partial), other loops: for a bit the body of the loop does not write, the assignment that wrote it last
in a run of the block is recorded as a driver, however often the body runs. Missing: the bits the body writes, for
which this is false (`open_loop_lost`). -/
theorem open_loop_sound_partial {c : DfaCtx} {net : NetGraph} (h : Ready c net) {pre body post : Stmt}
    {cond : List Ref} (hp : Plain (allWrites pre ++ allWrites body ++ allWrites post)) {tr : List Wr}
    (hr : OpenRuns pre body post tr) :
    ∃ s, ({ net := net } : Dfa).runBlock c (openBlock pre cond body post) = .ok s ∧
      ∀ sym p loc, (∀ w ∈ allWrites pre ++ allWrites body ++ allWrites post, ¬ Hits false sym p w) →
        (∀ w ∈ allWrites body, ¬ Hits true sym p w) → LastAt true tr sym p loc →
        ∃ d, Drives s.trk s.cur.drv sym p d ∧ IsAssign s.net d loc := by
  obtain ⟨t, l, v, a1, a2, a3, rfl⟩ := hr
  obtain ⟨s, h1, _, h3⟩ := open_loop_drivers h (cond := cond) hp (runs_live a1) (runs_live a3)
  refine ⟨s, h1, fun sym p loc hno hb hla => (h3 sym p loc hno).2 ⟨t, v, a1, a3, ?_⟩⟩
  have hl : ∀ w ∈ l, ¬ Hits true sym p w := fun w hw => hb w (repeats_writes a2 w hw)
  exact lastAt_between hl t hla

/-- Non-blocking assignments in the body of a loop that is not unrolled are recorded all the same, if one assignment
makes all non-blocking writes of the bit. -/
theorem open_loop_nonblocking {c : DfaCtx} {net : NetGraph} (h : Ready c net) {pre body post : Stmt}
    {cond : List Ref} (hp : Plain (allWrites pre ++ allWrites body ++ allWrites post)) (hl : live pre = true)
    (hl' : live post = true) {u : List Wr} (hu : Runs body u) {sym : Nat} {p : Int} {w : Wr} (hw : w ∈ u)
    (hh : Hits false sym p w)
    (hone : ∀ x ∈ allWrites pre ++ allWrites body ++ allWrites post, Hits false sym p x → x.loc = w.loc) :
    ∃ s d, ({ net := net } : Dfa).runBlock c (openBlock pre cond body post) = .ok s ∧
      Drives s.trk s.cur.drv sym p d ∧ IsAssign s.net d w.loc := by
  have he : allWrites (openBlock pre cond body post) = allWrites pre ++ allWrites body ++ allWrites post := by
    simp [openLoop, allWrites]
  rw [← he] at hp hone
  obtain ⟨s, h1, _, h3⟩ := block_drivers_partial h hp (by simp [live, hl, hl', openLoop])
  have hm : w ∈ nbaWrites true (openBlock pre cond body post) := by
    simp only [openBlock, openLoop, nbaWrites, hl, Bool.true_and, List.mem_append]
    exact .inr (.inl (.inr (.inr (.inl (by simpa [live] using runs_nba hu w hw hh.1)))))
  obtain ⟨loc, q1, x, q2, e, hx, hxl, hq⟩ := lastAt_exists ⟨w, hm, hh⟩
  have hxm : x ∈ nbaWrites true (openBlock pre cond body post) := by rw [e]; simp
  obtain ⟨d, g1, g2⟩ := (h3 sym p w.loc).2 (.inl ⟨q1, x, q2, e, hx, hone x (nbaWrites_sub hxm).1 hx, hq⟩)
  exact ⟨s, d, h1, g1, g2⟩

/-- `while (…) q <= a;` records the assignment of `q`. -/
example : (∃ u, Runs (nbl 2 [wrt 1 0 7, rdt 0 0 7]) u ∧ ∃ w ∈ u, Hits false 1 0 w) ∧
    linesAt (blockEnd (openBlock .skip [] (nbl 2 [wrt 1 0 7, rdt 0 0 7]) .skip)) 1 0 = [2] :=
  ⟨⟨_, .assign _ _ _, ⟨1, ⟨0, 7⟩, ln 2, false⟩, by decide, rfl, rfl, by simp [InRng]⟩, by decide⟩

/-- The condition of a loop that is not unrolled has no node of its own: its reads belong to the assignment in front
of the loop, as if that assignment depended on them. -/
theorem open_loop_condition {c : DfaCtx} {net : NetGraph} (h : Ready c net) {pre body : Stmt} {cond : List Ref}
    (hp : Plain (allWrites pre ++ allWrites body)) {loc : TextLoc} (hl : live pre = true) (hfin : Final pre loc)
    {r : Ref} (hr : r ∈ cond) (ha : r.auto = false)
    (hf : ReadFits (allWrites pre ++ allWrites body) r.sym r.bounds) :
    ∃ s n, ({ net := net } : Dfa).exec c (.seq pre (openLoop cond body)) = .ok s ∧ n ∈ s.net.g.nodes ∧
      s.net.data n = .assignment loc ∧ ∀ p, InRng r.bounds p →
        (∀ tr loc', Runs pre tr → LastAt true tr r.sym p loc' → FedBy s.net loc' n) ∧
        ((∀ tr, Runs pre tr → ∀ w ∈ tr, ¬ Hits true r.sym p w) → c.D.kind r.sym ≠ .modportPort →
          ∃ x ∈ s.queue, x.sym = r.sym ∧ x.node = some n ∧ InRng x.bounds p) := by
  obtain ⟨s1, e1, ok1, le1, hr1, sem1⟩ := exec_start h hp (fun w hw => List.mem_append_left _ hw)
  obtain ⟨n, hn, _, hnm, hnd⟩ := final_ok hp hfin _ s1 (ready_ok h _) (fun w hw => List.mem_append_left _ hw) e1
  have hnw : noteWrites {} true (cond.map fun r => (⟨false, r⟩ : Note)) = [] := by
    unfold noteWrites
    rw [List.filter_eq_nil_iff.2, List.map_nil]
    intro y hy
    obtain ⟨z, _, rfl⟩ := List.mem_map.1 hy
    simp
  obtain ⟨s2, k1, k2⟩ := noteRefs_linked (c := c) hp (blocking := true) (loc := {})
    (notes := cond.map fun r => ⟨false, r⟩) ok1 hn
    (fun ⟨y, hy, h⟩ => by obtain ⟨z, _, rfl⟩ := List.mem_map.1 hy; cases h)
    (by rw [hnw]; simp) (List.mem_map.2 ⟨r, hr, rfl⟩) ha hf sem1 (live_runs hl)
    (by rw [hnw]; intro p _ w h; cases h)
  obtain ⟨s2', k1', k3⟩ := readRefs_ok hp true cond ok1
  rw [k1] at k1'
  cases k1'
  obtain ⟨s3, g1, _, g3, _⟩ := exec_ok hp (.choose true .skip (.seq body .dead)) s2 (k3.ok ok1)
    (fun w hw => List.mem_append_right _ (by simpa [allWrites] using hw))
  have hn2 := k3.net.nodes n hnm
  have k4 := k2.mono g3.net g3.queue
  refine ⟨s3, n, by simp only [Dfa.exec, openLoop, e1, k1] at g1 ⊢; exact g1, g3.net.nodes n hn2,
    by rw [g3.net.data n hn2, k3.net.data n hnm, hnd], fun p hpb => ⟨fun tr loc' ht hla => k4.defs p tr loc' hpb ht hla,
    fun hno hk => ?_⟩⟩
  obtain ⟨x, hx, a1, a2, _, a3⟩ := k4.queued hk p hpb hno
  exact ⟨x, hx, a1, a2, a3⟩

/-- `t = 0; while (i) y = a;`: the assignment of `t` (node 0) waits for the drivers of `i`. -/
example :
    let pre := blk 1 [wrt 1 0 7]
    let body := blk 2 [wrt 2 0 7, rdt 0 0 7]
    Final pre (ln 1) ∧ live pre = true ∧ Plain (allWrites pre ++ allWrites body) ∧
    ReadFits (allWrites pre ++ allWrites body) 3 ⟨0, 0⟩ ∧
    (blockEnd (openBlock pre [⟨3, ⟨0, 0⟩, 0, false⟩] body .skip)).net.data 0 = .assignment (ln 1) ∧
    ⟨3, ⟨0, 0⟩, some 0, .none⟩ ∈ (blockEnd (openBlock pre [⟨3, ⟨0, 0⟩, 0, false⟩] body .skip)).queue := by
  refine ⟨.assign rfl, rfl, ?_, .inr ?_, by rfl, by decide⟩
  · refine plain_of_two (lo := 0) (mid := 3) (hi := 7) (by decide) (by decide) ?_ (by decide) (by decide)
    decide
  · intro k _ h1 h2
    simp [InRng] at h1 h2
    omega

/-- `p[0] = a; for (int i=0; i<3; i++) p[i+1] = p[i];` with the signals `a` (0) and `p` (1). -/
def chainIts : List Stmt := [blk 3 [wrt 1 1 1, rdt 1 0 0], blk 4 [wrt 1 2 2, rdt 1 1 1], blk 5 [wrt 1 3 3, rdt 1 2 2]]

def chainPre : Stmt := blk 2 [wrt 1 0 0, rdt 0 0 0]

theorem chain_writes : allWrites chainPre ++ chainIts.flatMap allWrites =
    [⟨1, ⟨0, 0⟩, ln 2, true⟩, ⟨1, ⟨1, 1⟩, ln 3, true⟩, ⟨1, ⟨2, 2⟩, ln 4, true⟩, ⟨1, ⟨3, 3⟩, ln 5, true⟩] := by
  decide

theorem chain_plain : Plain (allWrites chainPre ++ chainIts.flatMap allWrites) := by
  rw [chain_writes]
  constructor
  · decide
  · intro w hw j k _ _ h1 h2 h3
    simp only [List.mem_cons, List.not_mem_nil, or_false] at hw
    rcases hw with rfl | rfl | rfl | rfl <;> simp [BitRange.lower, BitRange.upper] at h1 h3 <;> omega

theorem chain_runs : RunsInOrder chainIts
    [⟨1, ⟨1, 1⟩, ln 3, true⟩, ⟨1, ⟨2, 2⟩, ln 4, true⟩, ⟨1, ⟨3, 3⟩, ln 5, true⟩] :=
  .cons (.assign _ _ _) (.cons (.assign _ _ _) (.cons (.assign _ _ _) .nil))

/-- The hypotheses of the theorems on unrolled loops are met, and the netlist is the one expected by
tests/unit/LoopTests.cpp:21-37: each assignment feeds the next, the first and the last one the merge. -/
example : LoopRuns chainPre chainIts .skip [⟨1, ⟨0, 0⟩, ln 2, true⟩, ⟨1, ⟨1, 1⟩, ln 3, true⟩, ⟨1, ⟨2, 2⟩, ln 4, true⟩,
      ⟨1, ⟨3, 3⟩, ln 5, true⟩] ∧
    Plain (allWrites chainPre ++ chainIts.flatMap allWrites ++ allWrites .skip) ∧
    linesAt (blockEnd (staticBlock chainPre chainIts .skip)) 1 3 = [5] ∧
    (let s := blockEnd (staticBlock chainPre chainIts .skip)
     nextOf s 0 = [1, 4] ∧ nextOf s 1 = [2] ∧ nextOf s 2 = [3] ∧ nextOf s 3 = [4] ∧ s.net.data 4 = .merge ∧
     s.queue = [⟨0, ⟨0, 0⟩, some 0, .none⟩]) := by
  refine ⟨⟨_, _, _, .assign _ _ _, chain_runs, .skip, by rfl⟩, ?_, by decide, by decide, by decide, by decide, by decide,
    by rfl, by decide⟩
  have : allWrites .skip = [] := rfl
  rw [this, List.append_nil]
  exact chain_plain

/-- The hypotheses of `static_loop_carried` are met by the read of `p[1]` in the second iteration, which the first
one writes. -/
example :
    let Q : List Wr → Prop := fun tr => ∃ t l, Runs chainPre t ∧ RunsInOrder (chainIts.take 1) l ∧ tr = t ++ l
    Use Q (blk 4 [wrt 1 2 2, rdt 1 1 1]) (.assignment (ln 4)) ⟨1, ⟨1, 1⟩, 0, false⟩ Q ∧
    chainIts = chainIts.take 1 ++ blk 4 [wrt 1 2 2, rdt 1 1 1] :: chainIts.drop 2 ∧
    ReadFits (allWrites chainPre ++ chainIts.flatMap allWrites) 1 ⟨1, 1⟩ ∧
    ∃ tr, Q tr ∧ LastAt true tr 1 1 (ln 3) := by
  refine ⟨.note (by simp [rdt]) rfl ?_, by rfl, .inr ?_,
    [⟨1, ⟨0, 0⟩, ln 2, true⟩, ⟨1, ⟨1, 1⟩, ln 3, true⟩], ⟨_, _, .assign _ _ _, .cons (.assign _ _ _) .nil, by rfl⟩, ?_⟩
  · intro p hp w hw hh
    simp [asgWrites, targets, wrt, rdt] at hw
    subst hw
    have h1 := hh.2.2
    simp [InRng] at hp h1
    omega
  · intro k _ h1 h2
    simp [InRng] at h1 h2
    omega
  · exact ⟨[⟨1, ⟨0, 0⟩, ln 2, true⟩], ⟨1, ⟨1, 1⟩, ln 3, true⟩, [], by rfl, ⟨rfl, rfl, by simp [InRng]⟩, rfl, by simp⟩

/-- The converse is false: after `t = 0; for (int i=0; i<2; i++) t[i] = a[i];` the first assignment of the two bits
is still recorded as a driver, although every run overwrites it. -/
theorem static_loop_keeps :
    let pre := blk 1 [wrt 1 0 1]
    let its := [blk 2 [wrt 1 0 0, rdt 0 0 0], blk 3 [wrt 1 1 1, rdt 0 1 1]]
    linesAt (blockEnd (staticBlock pre its .skip)) 1 0 = [1, 2] ∧
    linesAt (blockEnd (staticBlock pre its .skip)) 1 1 = [1, 3] ∧
    ∀ tr p, LoopRuns pre its .skip tr → ¬ LastAt true tr 1 p (ln 1) := by
  refine ⟨by decide, by decide, ?_⟩
  rintro _ p ⟨t, l, v, ht, hl, hv, rfl⟩ hla
  cases ht; cases hv
  cases hl with
  | cons h1 h2 =>
  cases h1
  cases h2 with
  | cons h2 h3 =>
  cases h2; cases h3
  simp only [asgWrites, targets, wrt, rdt] at hla
  simp only [List.filter_cons, List.filter_nil, List.map_cons, List.map_nil, Bool.not_false, Bool.and_true,
    Bool.false_eq_true, if_true, if_false, List.cons_append, List.nil_append, lastAt_cons] at hla
  simp [Hits, InRng, LastAt, ln] at hla
  omega

/-- C88 is false for loops that are not unrolled: after `t = 0; while (…) t = a;` only the first assignment is
recorded as a driver of `t`, although the body may run. This is the limitation described by
tests/unit/LoopTests.cpp:76-95. -/
theorem open_loop_lost :
    let pre := blk 1 [wrt 1 0 7]
    let body := blk 2 [wrt 1 0 7, rdt 0 0 7]
    linesAt (blockEnd (openBlock pre [⟨2, ⟨0, 31⟩, 0, false⟩] body .skip)) 1 0 = [1] ∧
    ∃ tr, OpenRuns pre body .skip tr ∧ LastAt true tr 1 0 (ln 2) := by
  refine ⟨by decide, [⟨1, ⟨0, 7⟩, ln 1, true⟩, ⟨1, ⟨0, 7⟩, ln 2, true⟩],
    ⟨_, _, _, .assign _ _ _, .again (.assign _ _ _) .none, .skip, by rfl⟩, ?_⟩
  exact ⟨[⟨1, ⟨0, 7⟩, ln 1, true⟩], ⟨1, ⟨0, 7⟩, ln 2, true⟩, [], by rfl, ⟨rfl, rfl, by simp [InRng]⟩, rfl, by simp⟩

/-- Nothing is carried from one run of the body to the next: in `t = 0; while (…) begin y = t; t = a; end` the
assignment of `y` (node 1) is linked to the first assignment of `t` (node 0) only, not to the one in the body
(node 2), whose value it reads in the second run. -/
theorem open_loop_not_carried :
    let pre := blk 1 [wrt 1 0 7]
    let body := Stmt.seq (blk 2 [wrt 2 0 7, rdt 1 0 7]) (blk 3 [wrt 1 0 7, rdt 0 0 7])
    let s := blockEnd (openBlock pre [] body .skip)
    nextOf s 0 = [1] ∧ nextOf s 2 = [] ∧ s.net.data 1 = .assignment (ln 2) ∧ s.net.data 2 = .assignment (ln 3) ∧
    s.queue = [⟨0, ⟨0, 7⟩, some 2, .none⟩] ∧
    ∃ t, Runs pre t ∧ ∃ l, Runs body l ∧ LastAt true (t ++ l) 1 0 (ln 3) := by
  refine ⟨by decide, by decide, by rfl, by rfl, by decide, _, .assign _ _ _, _, .seq (.assign _ _ _) (.assign _ _ _), ?_⟩
  exact ⟨[⟨1, ⟨0, 7⟩, ln 1, true⟩, ⟨2, ⟨0, 7⟩, ln 2, true⟩], ⟨1, ⟨0, 7⟩, ln 3, true⟩, [], by rfl,
    ⟨rfl, rfl, by simp [InRng]⟩, rfl, by simp⟩

/-- The hypotheses of `open_loop_sound_partial` are met: `u = …; while (…) t = a;` records the assignment of `u`. -/
example :
    let pre := blk 1 [wrt 2 0 7]
    let body := blk 2 [wrt 1 0 7, rdt 0 0 7]
    OpenRuns pre body .skip [⟨2, ⟨0, 7⟩, ln 1, true⟩, ⟨1, ⟨0, 7⟩, ln 2, true⟩, ⟨1, ⟨0, 7⟩, ln 2, true⟩] ∧
    Plain (allWrites pre ++ allWrites body ++ allWrites .skip) ∧ (∀ w ∈ allWrites body, ¬ Hits true 2 0 w) ∧
    LastAt true [⟨2, ⟨0, 7⟩, ln 1, true⟩, ⟨1, ⟨0, 7⟩, ln 2, true⟩, ⟨1, ⟨0, 7⟩, ln 2, true⟩] 2 0 (ln 1) ∧
    linesAt (blockEnd (openBlock pre [] body .skip)) 2 0 = [1] := by
  refine ⟨⟨_, _, _, .assign _ _ _, .again (.assign _ _ _) (.again (.assign _ _ _) .none), .skip, by rfl⟩, ?_, ?_, ?_,
    by decide⟩
  · refine plain_of_two (lo := 0) (mid := 3) (hi := 7) (by decide) (by decide) ?_ (by decide) (by decide)
    decide
  · intro w hw hh
    simp [allWrites, blk, asgWrites, targets, wrt, rdt] at hw
    subst hw
    exact absurd hh.2.1 (by decide)
  · exact ⟨[], ⟨2, ⟨0, 7⟩, ln 1, true⟩, [⟨1, ⟨0, 7⟩, ln 2, true⟩, ⟨1, ⟨0, 7⟩, ln 2, true⟩], by rfl,
      ⟨rfl, rfl, by simp [InRng]⟩, rfl, by simp [Hits]⟩

end Verif.Props

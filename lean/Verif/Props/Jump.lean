import Verif.Proofs.Jump
import Verif.Props.Dataflow

/-! C106: jumps. -/
namespace Verif.Props
open Verif.Model Verif.Spec Verif.Proofs

theorem appJ_start (a : JStmt) (o : Option Nat) : appJ (fun tr => tr = []) a o = fun tr => JRuns a tr o := by
  funext tr
  simp only [appJ, eq_iff_iff]
  constructor
  · rintro ⟨_, v, rfl, h, rfl⟩; exact h
  · intro h; exact ⟨[], tr, rfl, h, rfl⟩

/-- The state of the analysis after a statement with jumps, started on a built graph. -/
theorem jump_start {c : DfaCtx} {net : NetGraph} (h : Ready c net) {a : JStmt} {W : List Wr}
    (hW : Plain W) (hsub : ∀ w ∈ jumpWrites a, w ∈ W) :
    ∃ s l, ({ net := net } : Dfa).execJ c a = .ok (s, l) ∧ Ok c W s ∧ Le (jumpNba true a) { net := net } s ∧
      s.cur.reach = jumpEnds a ∧ (∀ k, (l k).any (·.reach) = jumpLeaves k a) ∧ Sem s fun tr => JRuns a tr none := by
  obtain ⟨s, l, h1, h2, h3, h4, _, h5, h6⟩ := execJ_ok hW a _ (ready_ok h W) hsub
  refine ⟨s, l, h1, h2, h3, by simpa using h4, fun k => by simpa using h5 k, ?_⟩
  have := (h6 _ ready_sem).1
  rwa [appJ_start] at this

/-- The analysis never faults on a statement with jumps, its end is reachable exactly if some path leads there, and a
state that can be reached is kept for a jump exactly if some path takes it. -/
theorem jump_reachable {c : DfaCtx} {net : NetGraph} (h : Ready c net) {a : JStmt} (hp : Plain (jumpWrites a)) :
    ∃ s l, ({ net := net } : Dfa).execJ c a = .ok (s, l) ∧
      (s.cur.reach = true ↔ ∃ tr, JRuns a tr none) ∧
      ∀ k, (∃ f ∈ l k, f.reach = true) ↔ ∃ tr, JRuns a tr (some k) := by
  obtain ⟨s, l, h1, _, _, h4, h5, _⟩ := jump_start h hp (fun w h => h)
  refine ⟨s, l, h1, by rw [h4]; exact (jump_runs a).1, fun k => ?_⟩
  rw [← (jump_runs a).2 k, ← h5 k, List.any_eq_true]

/-- C106 (partial): the drivers recorded for each bit at the end of a block with jumps, exactly: the assignment of the
textually last non-blocking write of the bit, if there is one; otherwise the assignments whose blocking write is the last
one of the bit on some path to the end, whether or not the path leaves a loop or a subroutine early. No step faults. For
all statements whose written ranges have at most one boundary strictly inside each of them (`Plain`). Missing: other
ranges; and the first alternative is not what the code should record (`jump_dead_recorded`, `jump_early_lost`). -/
theorem jump_drivers_partial {c : DfaCtx} {net : NetGraph} (h : Ready c net) {a : JStmt}
    (hp : Plain (jumpWrites a)) (hl : ∃ tr, JRuns a tr none) :
    ∃ s, ({ net := net } : Dfa).runJ c a = .ok s ∧
      (∀ sym p d, Drives s.trk s.cur.drv sym p d → ∃ loc, IsAssign s.net d loc) ∧
      ∀ sym p loc, (∃ d, Drives s.trk s.cur.drv sym p d ∧ IsAssign s.net d loc) ↔
        LastAt false (jumpNba true a) sym p loc ∨
        ((∀ w ∈ jumpNba true a, ¬ Hits false sym p w) ∧
          ∃ tr, JRuns a tr none ∧ LastAt true tr sym p loc) := by
  obtain ⟨s1, l1, h1, h2, h3, h4, _, h5⟩ := jump_start h hp (fun w h => h)
  obtain ⟨l, e1, e2⟩ := h3.nba
  simp only [List.nil_append] at e1
  subst e1
  obtain ⟨s2, g1, g2, g3, _, g5⟩ := processNba_at hp s1.nba s1 _ h2 h2.nba e2
  refine ⟨s2, by simp only [Dfa.runJ, h1, g1], ?_, ?_⟩
  · intro sym p d hd
    exact g2.flow.assign sym p d ((drives_iff g2.trk g2.flow.drv sym p d).1 hd)
  · intro sym p loc
    simp only [drives_iff g2.trk g2.flow.drv]
    rw [g5, h5.defs (by rw [h4]; exact (jump_runs a).1.2 hl)]

theorem jumpNba_sub {a : JStmt} : ∀ {r : Bool} {w : Wr}, w ∈ jumpNba r a → w ∈ jumpWrites a ∧ w.blocking = false := by
  induction a with
  | plain s => intro r w hw; exact nbaWrites_sub hw
  | jump k => intro r w hw; cases hw
  | seq a b iha ihb =>
    intro r w hw
    rcases List.mem_append.1 hw with hw | hw
    · exact ⟨List.mem_append_left _ (iha hw).1, (iha hw).2⟩
    · exact ⟨List.mem_append_right _ (ihb hw).1, (ihb hw).2⟩
  | choose f a b iha ihb =>
    intro r w hw
    rcases List.mem_append.1 hw with hw | hw
    · exact ⟨List.mem_append_left _ (iha hw).1, (iha hw).2⟩
    · exact ⟨List.mem_append_right _ (ihb hw).1, (ihb hw).2⟩
  | scope a ih => intro r w hw; exact ih hw

/-- With blocking assignments only, the drivers of a bit are the assignments that wrote it last on some path. -/
theorem jump_blocking {c : DfaCtx} {net : NetGraph} (h : Ready c net) {a : JStmt}
    (hp : Plain (jumpWrites a)) (hl : ∃ tr, JRuns a tr none) (hb : ∀ w ∈ jumpWrites a, w.blocking = true) :
    ∃ s, ({ net := net } : Dfa).runJ c a = .ok s ∧
      ∀ sym p loc, (∃ d, Drives s.trk s.cur.drv sym p d ∧ IsAssign s.net d loc) ↔
        ∃ tr, JRuns a tr none ∧ LastAt true tr sym p loc := by
  obtain ⟨s, h1, _, h3⟩ := jump_drivers_partial h hp hl
  have hn : jumpNba true a = [] := by
    refine List.eq_nil_iff_forall_not_mem.2 fun w hw => ?_
    have := jumpNba_sub hw
    rw [hb w this.1] at this
    cases this.2
  refine ⟨s, h1, fun sym p loc => ?_⟩
  rw [h3, hn]
  constructor
  · rintro (h | h)
    · obtain ⟨v, hv, _⟩ := lastAt_hits h
      cases hv
    · exact h.2
  · exact fun h => .inr ⟨by simp, h⟩

theorem jump_loop_inner (bs : List JStmt) : ∀ t : List Wr,
    (JRuns (bs.foldr (fun b rest => .seq (.scope b) rest) (.plain .skip)) t none ∨
      JRuns (bs.foldr (fun b rest => .seq (.scope b) rest) (.plain .skip)) t (some 0)) ↔ JLoopRuns bs t := by
  induction bs with
  | nil =>
    intro t
    constructor
    · rintro (h | h)
      · cases h with | plain h => cases h; exact .done
      · cases h
    · intro h; cases h; exact .inl (.plain .skip)
  | cons b bs ih =>
    intro t
    simp only [List.foldr_cons]
    constructor
    · rintro (h | h)
      · cases h with
        | seq h1 h2 =>
          cases h1 with
          | through h1 => exact .next h1 ((ih _).1 (.inl h2))
          | here h1 => exact .continue h1 ((ih _).1 (.inl h2))
      · cases h with
        | seq h1 h2 =>
          cases h1 with
          | through h1 => exact .next h1 ((ih _).1 (.inr h2))
          | here h1 => exact .continue h1 ((ih _).1 (.inr h2))
        | away h1 => cases h1 with | out h1 => exact .break h1
    · intro h
      cases h with
      | next h1 h2 =>
        rcases (ih _).2 h2 with h2 | h2
        · exact .inl (.seq (.through h1) h2)
        · exact .inr (.seq (.through h1) h2)
      | «continue» h1 h2 =>
        rcases (ih _).2 h2 with h2 | h2
        · exact .inl (.seq (.here h1) h2)
        · exact .inr (.seq (.here h1) h2)
      | «break» h1 => exact .inr (.away (.out h1))

/-- An unrolled loop runs as a loop with `continue` and `break` does, or is skipped. -/
theorem jump_loop_runs (bs : List JStmt) (t : List Wr) : JRuns (.loop bs) t none ↔ JLoopRuns bs t ∨ t = [] := by
  rw [← jump_loop_inner]
  constructor
  · intro h
    cases h with
    | through h =>
      cases h with
      | first h => cases h with | plain h => cases h; exact .inr rfl
      | second h => exact .inl (.inl h)
    | here h =>
      cases h with
      | first h => cases h
      | second h => exact .inl (.inr h)
  · rintro ((h | h) | rfl)
    · exact .through (.second h)
    · exact .here (.second h)
    · exact .through (.first (.plain .skip))

/-- C106 for loops: after a loop with `continue` and `break`, blocking assignments only, the drivers of a bit are the
assignments that wrote it last in some sequence of iterations, complete or cut short, or before the loop if it is
skipped. -/
theorem jump_loop_blocking {c : DfaCtx} {net : NetGraph} (h : Ready c net) {st : Stmt} {bs : List JStmt}
    (hp : Plain (jumpWrites (.seq (.plain st) (.loop bs)))) (hl : ∃ tr, Runs st tr)
    (hb : ∀ w ∈ jumpWrites (.seq (.plain st) (.loop bs)), w.blocking = true) :
    ∃ s, ({ net := net } : Dfa).runJ c (.seq (.plain st) (.loop bs)) = .ok s ∧
      ∀ sym p loc, (∃ d, Drives s.trk s.cur.drv sym p d ∧ IsAssign s.net d loc) ↔
        ∃ u v, Runs st u ∧ (JLoopRuns bs v ∨ v = []) ∧ LastAt true (u ++ v) sym p loc := by
  obtain ⟨t, ht⟩ := hl
  obtain ⟨s, h1, h2⟩ := jump_blocking h hp
    ⟨_, .seq (.plain ht) ((jump_loop_runs bs []).2 (.inr rfl))⟩ hb
  refine ⟨s, h1, fun sym p loc => (h2 sym p loc).trans ⟨?_, ?_⟩⟩
  · rintro ⟨_, h, k⟩
    cases h with
    | seq h h' => cases h with | plain h => exact ⟨_, _, h, (jump_loop_runs _ _).1 h', k⟩
  · rintro ⟨u, v, h, h', k⟩
    exact ⟨_, .seq (.plain h) ((jump_loop_runs _ _).2 h'), k⟩

/-! ### Reads and conditions -/

/-- C106 for reads: a read of a range, made for node `n` after a statement some paths of which have left by jumps. There
is an edge to `n` from every assignment that is, for some bit of the range, the last to write it on some path that
arrives; a bit of the range that none of them writes is queued for `n`; and no other edge is added. Limited as
`read_linked_partial`. -/
theorem jump_read_linked_partial {c : DfaCtx} {net : NetGraph} (h : Ready c net) {pre : JStmt}
    (hp : Plain (jumpWrites pre)) (hl : ∃ tr, JRuns pre tr none) {r : Ref}
    (hf : ReadFits (jumpWrites pre) r.sym r.bounds) {s : Dfa} {l : Nat → List Flow} {n : Nat}
    (he : ({ net := net } : Dfa).execJ c pre = .ok (s, l)) (hn : s.cur.node = some n)
    (hk : c.D.kind r.sym ≠ .modportPort) :
    ∃ s' q, s.handleRvalue c r = .ok s' ∧ s'.queue = s.queue ++ q ∧
      (∀ x ∈ q, x.sym = r.sym ∧ x.node = some n ∧ x.kind = .none) ∧
      (∀ tr p loc, JRuns pre tr none → InRng r.bounds p → LastAt true tr r.sym p loc →
        ∃ k ∈ s.net.g.nodes, s.net.data k = .assignment loc ∧ Joined s'.net k n) ∧
      (∀ p, InRng r.bounds p → (∀ tr, JRuns pre tr none → ∀ w ∈ tr, ¬ Hits true r.sym p w) →
        ∃ x ∈ q, InRng x.bounds p) ∧
      (∀ x ∈ q, ∀ p, InRng x.bounds p → InRng r.bounds p ∧
        ((∀ tr, JRuns pre tr none → ∀ w ∈ tr, ¬ Hits true r.sym p w) ∨ p = r.bounds.upper)) ∧
      ∀ a k, Joined s'.net a k → Joined s.net a k ∨ (k = n ∧
        ∃ tr p loc, JRuns pre tr none ∧ InRng r.bounds p ∧ LastAt true tr r.sym p loc ∧
          s.net.data a = .assignment loc) := by
  obtain ⟨s0, l0, h1, hok, _, h4, _, hsem⟩ := jump_start h hp (fun w h => h)
  rw [he] at h1; cases h1
  obtain ⟨s', q, g1, g2, g3, g4, g5, g6, g7, g8, g9⟩ := handleRvalue_spec hok r hn hf
  have hdefs := hsem.defs (by rw [h4]; exact (jump_runs pre).1.2 hl)
  have hno : ∀ p, (∀ d, ¬ DAt s.trk s.cur.drv r.sym p d) ↔
      ∀ tr, JRuns pre tr none → ∀ w ∈ tr, ¬ Hits true r.sym p w := by
    intro p
    constructor
    · intro hd tr htr w hw hh
      obtain ⟨loc, hla⟩ := lastAt_exists ⟨w, hw, hh⟩
      obtain ⟨d, hd', _⟩ := (hdefs r.sym p loc).2 ⟨tr, htr, hla⟩
      exact hd d hd'
    · intro hw d hd
      obtain ⟨loc, hloc⟩ := hok.flow.assign _ _ _ hd
      obtain ⟨tr, htr, hla⟩ := (hdefs r.sym p loc).1 ⟨d, hd, hloc⟩
      obtain ⟨w, hwm, hh⟩ := lastAt_hits hla
      exact hw tr htr w hwm hh
  refine ⟨s', q, g1, g3, fun x hx => ?_, ?_, ?_, ?_, ?_⟩
  · obtain ⟨a, b, e, _⟩ := g4 x hx; exact ⟨a, b, e⟩
  · intro tr p loc htr hpb hla
    obtain ⟨d, hd, k, hk, rfl, hkd⟩ := (hdefs r.sym p loc).2 ⟨tr, htr, hla⟩
    exact ⟨k, hk, hkd, g7 p k hpb hd⟩
  · intro p hpb hw
    exact g6 p hpb ((hno p).2 hw) hk
  · intro x hx p hpx
    obtain ⟨a, b⟩ := g5 x hx p hpx
    refine ⟨a, ?_⟩
    rcases b with b | b
    · exact .inl ((hno p).1 b)
    · exact .inr b
  · intro a k hj
    rcases g9 a k hj with hj | ⟨rfl, ⟨p, hpb, hd⟩ | hm⟩
    · exact .inl hj
    · obtain ⟨loc, hloc⟩ := hok.flow.assign _ _ _ hd
      obtain ⟨tr, htr, hla⟩ := (hdefs r.sym p loc).1 ⟨_, hd, hloc⟩
      obtain ⟨_, _, hk', hkd⟩ := hloc
      cases hk'
      exact .inr ⟨rfl, tr, p, loc, htr, hpb, hla, hkd⟩
    · exact absurd hm.1 hk

/-- C106 for conditions: `if (…) jump; body`. The node of the condition of an early exit has an edge to the first
assignment after it on each path. Missing: later assignments (`jump_condition_lost`). -/
theorem jump_controls_partial {c : DfaCtx} {net : NetGraph} (h : Ready c net) {pre : JStmt} {body : Stmt}
    {isCase f : Bool} {at_ loc : TextLoc} {j : Nat} (hp : Plain (jumpWrites pre ++ allWrites body))
    (hr : ∃ tr, JRuns pre tr none) (hl : Leads body loc) :
    ∃ s l s' l', ({ net := net } : Dfa).execJ c pre = .ok (s, l) ∧
      s.execJ c (.seq (.plain (.branch isCase at_)) (.seq (.choose f (.jump j) (.plain .skip)) (.plain body))) =
        .ok (s', l') ∧
      ∃ k n, k ∈ s'.net.g.nodes ∧ n ∈ s'.net.g.nodes ∧ k ∉ s.net.g.nodes ∧ n ∉ s.net.g.nodes ∧
        s'.net.data k = (if isCase then .case at_ else .conditional at_) ∧
        s'.net.data n = .assignment loc ∧ Joined s'.net k n := by
  obtain ⟨s, l, h1, h2, _, h4, _, _⟩ := jump_start h hp (a := pre) (fun w h => List.mem_append_left _ h)
  obtain ⟨s1, k, b1, b2, b3, _, b5, b6, b7, b8, _⟩ := branch_ok h2 isCase at_
  have hreach : s1.cur.reach = true := by
    rw [b2.flow, h4]; exact (jump_runs pre).1.2 hr
  have hsub : ∀ w ∈ allWrites body, w ∈ jumpWrites pre ++ allWrites body := fun w h => List.mem_append_right _ h
  obtain ⟨s2, e1, e2, e3, _⟩ := exec_ok hp body s1 b3 hsub
  obtain ⟨n, g1, g2, g3, g4⟩ := leads_ok hp hl s1 s2 k b3 hsub b5 e1
  have hb : s.exec c (.branch isCase at_) = .ok s1 := b1
  have hch : ∃ l, s1.execJ c (.choose f (.jump j) (.plain .skip)) = .ok (s1, l) := by
    cases f <;> simp [Dfa.execJ, Dfa.exec, Dfa.joinState, hreach]
  obtain ⟨l1, hch⟩ := hch
  refine ⟨s, l, s2, fun i => [] ++ (l1 i ++ []), h1, ?_, k, n, e3.net.nodes k b7, g1, b6,
    fun hn => g2 (b2.net.nodes n hn), ?_, g3, g4⟩
  · rw [Dfa.execJ, Dfa.execJ, hb]
    simp only
    rw [Dfa.execJ, hch]
    simp only [Dfa.execJ, e1]
  · rw [e3.net.data k b7]; exact b8

/-- A scope that no jump leaves is as if it were not there. -/
theorem scope_plain (c : DfaCtx) (s s' : Dfa) (st : Stmt) (h : s.exec c st = .ok s') :
    ∃ l, s.execJ c (.scope (.plain st)) = .ok (s', l) ∧ ∀ k, l k = [] :=
  ⟨fun _ => [], by simp only [Dfa.execJ, h, Dfa.joinAll], fun _ => rfl⟩

/-! ### Examples -/

/-- The state after a whole block with jumps. -/
def jumpEnd (a : JStmt) : Dfa := (({ net := {} } : Dfa).runJ flowCtx a).toOption.getD { net := {} }

/-- A loop of two iterations: `a = …; if (x) break; a[3:0] = …;` on lines 1 and 2, and again on lines 3 and 4. -/
def brk : List JStmt :=
  [.seq (.plain (blk 1 [wrt 0 0 7])) (.seq (.choose false (.jump 1) (.plain .skip)) (.plain (blk 2 [wrt 0 0 3]))),
   .seq (.plain (blk 3 [wrt 0 0 7])) (.seq (.choose false (.jump 1) (.plain .skip)) (.plain (blk 4 [wrt 0 0 3])))]

/-- The same with `continue`. -/
def cnt : List JStmt :=
  [.seq (.plain (blk 1 [wrt 0 0 7])) (.seq (.choose false (.jump 0) (.plain .skip)) (.plain (blk 2 [wrt 0 0 3]))),
   .seq (.plain (blk 3 [wrt 0 0 7])) (.seq (.choose false (.jump 0) (.plain .skip)) (.plain (blk 4 [wrt 0 0 3])))]

example : ∃ s, ({ net := {} } : Dfa).runJ flowCtx (.seq (.plain (blk 9 [wrt 0 0 7])) (.loop brk)) = .ok s ∧
    ∀ sym p loc, (∃ d, Drives s.trk s.cur.drv sym p d ∧ IsAssign s.net d loc) ↔
      ∃ u v, Runs (blk 9 [wrt 0 0 7]) u ∧ (JLoopRuns brk v ∨ v = []) ∧ LastAt true (u ++ v) sym p loc :=
  jump_loop_blocking flow_ready
    (plain_of_two (lo := 0) (mid := 3) (hi := 7) (by decide) (by decide) (by decide) (by decide) (by decide))
    ⟨_, .assign _ _ _⟩ (by decide)

example : JLoopRuns brk [⟨0, ⟨0, 7⟩, ln 1, true⟩] :=
  .break (.seq (.plain (.assign _ _ _)) (.away (.first (.jump 1))))

/-- Left by `break` in the first iteration, by `break` in the second one, or at the end; with `continue` the first
iteration is always followed by the second one. -/
theorem jump_example :
    linesAt (jumpEnd (.loop brk)) 0 1 = [4, 1, 3] ∧ linesAt (jumpEnd (.loop brk)) 0 5 = [3, 1] ∧
    linesAt (jumpEnd (.loop cnt)) 0 1 = [4, 3] ∧ linesAt (jumpEnd (.loop cnt)) 0 5 = [3] := by
  decide +kernel

/-- The hypotheses of `jump_read_linked_partial` are met: `a = …; if (x) return; a[3:0] = …; b = …` (whose node is 2); a read of
`a` there sees both assignments of `a`, one for each half. -/
example :
    let pre := JStmt.seq (.plain (blk 1 [wrt 0 0 7])) (.seq (.choose false (.jump 0) (.plain .skip))
      (.seq (.plain (blk 2 [wrt 0 0 3])) (.plain (blk 3 [wrt 1 0 7]))))
    Plain (jumpWrites pre) ∧ (∃ tr, JRuns pre tr none) ∧ ReadFits (jumpWrites pre) 0 ⟨0, 7⟩ ∧
    (∃ s l, ({ net := {} } : Dfa).execJ flowCtx pre = .ok (s, l) ∧ s.cur.node = some 2) := by
  refine ⟨plain_of_two (lo := 0) (mid := 3) (hi := 7) (by decide) (by decide) (by decide) (by decide) (by decide),
    ⟨_, .seq (.plain (.assign _ _ _)) (.seq (.second (.plain .skip)) (.seq (.plain (.assign _ _ _))
      (.plain (.assign _ _ _))))⟩, .inl ?_, _, _, rfl, by decide +kernel⟩
  intro w hw
  simp only [jumpWrites, allWrites, blk, asgWrites, targets, wrt] at hw
  simp at hw
  rcases hw with rfl | rfl | rfl
  · intro _ _ p h; exact h
  · intro _ _ p h; simp [InRng] at h ⊢; omega
  · intro h; cases h

/-- An iteration `if (x[b]) break; a[b] = …;`. -/
def exitIt (n : Nat) (b : Int) : JStmt :=
  .seq (.plain (.seq (.branch false (ln n)) (.reads [⟨1, ⟨b, b⟩, 0, false⟩])))
    (.seq (.choose false (.jump 1) (.plain .skip)) (.plain (blk (n + 1) [wrt 0 b b])))

/-- What the condition of a `break` does to the next iteration is lost: with two iterations of `exitIt`, `a[1]` is only
written (line 21, node 3) if `x[0]` (the condition on line 10, node 0) does not leave the loop before, but there is no
path from node 0 to node 3. -/
theorem jump_condition_lost :
    let s := jumpEnd (.loop [exitIt 10 0, exitIt 20 1])
    s.net.data 0 = .conditional (ln 10) ∧ s.net.data 1 = .assignment (ln 11) ∧
    s.net.data 2 = .conditional (ln 20) ∧ s.net.data 3 = .assignment (ln 21) ∧
    nextOf s 0 = [1, 4, 6] ∧ nextOf s 1 = [] ∧ nextOf s 4 = [5] ∧ nextOf s 5 = [] ∧ nextOf s 6 = [] ∧
    nextOf s 2 = [3, 5, 6] ∧
    ∀ tr, JLoopRuns [exitIt 10 0, exitIt 20 1] tr → (∃ w ∈ tr, w.loc = ln 21) → ∃ w ∈ tr, w.loc = ln 11 := by
  refine ⟨by decide +kernel, by decide +kernel, by decide +kernel, by decide +kernel, by decide +kernel,
    by decide +kernel, by decide +kernel, by decide +kernel, by decide +kernel, by decide +kernel, ?_⟩
  have hend : ∀ {t : List Wr}, JRuns (exitIt 10 0) t none → ∃ w ∈ t, w.loc = ln 11 := by
    intro t h
    cases h with | seq h1 h2 => cases h2 with | seq h2 h3 => cases h3 with | plain h3 => cases h3 with | assign =>
      exact ⟨⟨0, ⟨0, 0⟩, ln 11, true⟩, by simp [asgWrites, targets, wrt], rfl⟩
  have hout : ∀ {t : List Wr} {k : Nat}, JRuns (exitIt 10 0) t (some k) → k = 1 ∧ t = [] := by
    intro t k h
    cases h with
    | away h => cases h
    | seq h1 h2 =>
      cases h1 with | plain h1 => cases h1 with | seq h1 h1' => cases h1 with | branch => cases h1' with | reads =>
        cases h2 with
        | away h2 =>
          cases h2 with
          | first h2 => cases h2; exact ⟨rfl, rfl⟩
          | second h2 => cases h2
        | seq h2 h3 => cases h3
  intro tr h hw
  cases h with
  | next h1 _ =>
    obtain ⟨w, hw, hl⟩ := hend h1
    exact ⟨w, List.mem_append_left _ hw, hl⟩
  | «continue» h1 _ => exact absurd (hout h1).1 (by decide)
  | «break» h1 =>
    obtain ⟨w, hw, _⟩ := hw
    rw [(hout h1).2] at hw
    cases hw

/-- The hypotheses of `jump_controls_partial` are met. -/
example : Plain (jumpWrites (.plain .skip) ++ allWrites (blk 2 [wrt 0 0 3])) ∧
    (∃ tr, JRuns (.plain .skip) tr none) ∧ Leads (blk 2 [wrt 0 0 3]) (ln 2) :=
  ⟨plain_of_two (lo := 0) (mid := 3) (hi := 7) (by decide) (by decide) (by decide) (by decide) (by decide),
    ⟨_, .plain .skip⟩, .assign (by simp [asgLocs])⟩

/-- A non-blocking assignment that only unreachable code contains, after a `return`, is recorded as the driver if it is
split into bit-aligned parts; and otherwise not. -/
theorem jump_dead_recorded :
    linesAt (jumpEnd (.scope (.seq (.plain (blk 1 [wrt 0 0 7])) (.seq (.jump 0) (.plain (nba1 2 0 0 7)))))) 0 1 = [2] ∧
    linesAt (jumpEnd (.scope (.seq (.plain (blk 1 [wrt 0 0 7])) (.seq (.jump 0) (.plain (nbl 2 [wrt 0 0 7])))))) 0 1
      = [1] := by
  decide +kernel

/-- `a <= …; if (x) return; a <= …;`: the first assignment takes effect if the block is left early, but only the second
one is recorded. -/
theorem jump_early_lost :
    linesAt (jumpEnd (.scope (.seq (.plain (nbl 1 [wrt 0 0 7]))
      (.seq (.choose false (.jump 0) (.plain .skip)) (.plain (nbl 2 [wrt 0 0 7])))))) 0 1 = [2] ∧
    ∃ tr, JRuns (.scope (.seq (.plain (nbl 1 [wrt 0 0 7]))
      (.seq (.choose false (.jump 0) (.plain .skip)) (.plain (nbl 2 [wrt 0 0 7]))))) tr none ∧
      LastAt false tr 0 1 (ln 1) :=
  ⟨by decide +kernel, _, .here (.seq (.plain (.assign _ _ _)) (.away (.first (.jump 0)))),
    ⟨[], ⟨0, ⟨0, 7⟩, ln 1, false⟩, [], rfl, ⟨rfl, rfl, by simp [InRng]⟩, rfl, by simp⟩⟩

end Verif.Props

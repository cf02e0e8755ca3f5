import Verif.Proofs.DataflowRead

/-! C32, C33, C34, C60, C61: the data flow analysis of a procedural block. -/
namespace Verif.Props
open Verif.Model Verif.Spec Verif.Proofs

theorem ready_ok {c : DfaCtx} {net : NetGraph} (h : Ready c net) (W : List Wr) :
    Ok c W { net := net } :=
  ⟨h.built, trkOk_empty, ⟨drvOk_empty _ _, fun _ _ _ h => absurd h dAt_empty, by simp, by simp⟩,
    h.vars, h.ext, by simp⟩

theorem ready_sem {net : NetGraph} : Sem { net := net } (fun tr => tr = []) := by
  refine ⟨⟨fun _ => ⟨[], rfl⟩, fun _ => rfl⟩, fun _ y p loc => ⟨?_, ?_⟩⟩
  · rintro ⟨d, h, _⟩; exact absurd h dAt_empty
  · rintro ⟨_, rfl, h⟩
    obtain ⟨v, hv, _⟩ := lastAt_hits h
    cases hv

theorem appS_start (st : Stmt) : appS (fun tr => tr = []) st = Runs st := by
  funext tr
  simp only [appS, eq_iff_iff]
  constructor
  · rintro ⟨_, v, rfl, h, rfl⟩; exact h
  · intro h; exact ⟨[], tr, rfl, h, rfl⟩

/-- The state of the analysis after a statement, started on a built graph. -/
theorem exec_start {c : DfaCtx} {net : NetGraph} (h : Ready c net) {st : Stmt} {W : List Wr}
    (hW : Plain W) (hsub : ∀ w ∈ allWrites st, w ∈ W) :
    ∃ s, ({ net := net } : Dfa).exec c st = .ok s ∧ Ok c W s ∧ Le (nbaWrites true st) { net := net } s ∧
      s.cur.reach = live st ∧ Sem s (Runs st) := by
  obtain ⟨s, h1, h2, h3, h4, h5⟩ := exec_ok hW st _ (ready_ok h W) hsub
  refine ⟨s, h1, h2, h3, by simpa using h4, ?_⟩
  have := h5 _ ready_sem
  rwa [appS_start] at this

/-! ### C34 and C33: the drivers of a bit at the end of a block -/

/-- The drivers recorded for each bit at the end of a block, exactly: the assignment of the textually
last non-blocking write of the bit, if there is one; otherwise the assignments whose blocking write
is the last one of the bit on some control path. No step faults. For all statements whose written
ranges have at most one boundary strictly inside each of them (`Plain`) and which some path leads
through. -/
theorem block_drivers_partial {c : DfaCtx} {net : NetGraph} (h : Ready c net) {st : Stmt}
    (hp : Plain (allWrites st)) (hl : live st = true) :
    ∃ s, ({ net := net } : Dfa).runBlock c st = .ok s ∧
      (∀ sym p d, Drives s.trk s.cur.drv sym p d → ∃ loc, IsAssign s.net d loc) ∧
      ∀ sym p loc, (∃ d, Drives s.trk s.cur.drv sym p d ∧ IsAssign s.net d loc) ↔
        LastAt false (nbaWrites true st) sym p loc ∨
        ((∀ w ∈ nbaWrites true st, ¬ Hits false sym p w) ∧
          ∃ tr, Runs st tr ∧ LastAt true tr sym p loc) := by
  obtain ⟨s1, h1, h2, h3, h4, h5⟩ := exec_start h hp (fun w h => h)
  obtain ⟨l, e1, e2⟩ := h3.nba
  simp only [List.nil_append] at e1
  subst e1
  obtain ⟨s2, g1, g2, g3, _, g5⟩ := processNba_at hp s1.nba s1 _ h2 h2.nba e2
  refine ⟨s2, by simp only [Dfa.runBlock, h1, g1], ?_, ?_⟩
  · intro sym p d hd
    exact g2.flow.assign sym p d ((drives_iff g2.trk g2.flow.drv sym p d).1 hd)
  · intro sym p loc
    simp only [drives_iff g2.trk g2.flow.drv]
    rw [g5, h5.defs (by rw [h4, hl])]

theorem asgWrites_blocking {loc : TextLoc} {b : Bool} {a : Asg} {w : Wr} (h : w ∈ asgWrites loc b a) :
    w.blocking = b := by
  cases a with
  | legacy notes => obtain ⟨x, _, rfl⟩ := List.mem_map.1 h; rfl
  | aligned segs =>
    obtain ⟨g, _, hg⟩ := List.mem_flatMap.1 h
    obtain ⟨x, _, rfl⟩ := List.mem_map.1 hg
    rfl

theorem nbaWrites_sub {st : Stmt} : ∀ {r : Bool} {w : Wr}, w ∈ nbaWrites r st →
    w ∈ allWrites st ∧ w.blocking = false := by
  induction st with
  | assign loc b a =>
    intro r w hw
    have hb : ∀ w ∈ asgWrites loc false a, w.blocking = false := fun w hw => asgWrites_blocking hw
    cases b with
    | true => simp [nbaWrites] at hw
    | false =>
      have : w ∈ asgWrites loc false a := by
        cases a with
        | legacy notes =>
          simp only [nbaWrites] at hw
          split at hw
          · exact hw
          · cases hw
        | aligned segs => exact hw
      exact ⟨this, hb w this⟩
  | seq s t ihs iht =>
    intro r w hw
    rcases List.mem_append.1 hw with hw | hw
    · exact ⟨List.mem_append_left _ (ihs hw).1, (ihs hw).2⟩
    · exact ⟨List.mem_append_right _ (iht hw).1, (iht hw).2⟩
  | choose f s t ihs iht =>
    intro r w hw
    rcases List.mem_append.1 hw with hw | hw
    · exact ⟨List.mem_append_left _ (ihs hw).1, (ihs hw).2⟩
    · exact ⟨List.mem_append_right _ (iht hw).1, (iht hw).2⟩
  | _ => intro r w hw; simp [nbaWrites] at hw

theorem runs_live {st : Stmt} {tr : List Wr} (h : Runs st tr) : live st = true := by
  induction h <;> simp_all [live]

/-- The writes on a path occur in the text. -/
theorem runs_all {st : Stmt} {tr : List Wr} (h : Runs st tr) : ∀ w ∈ tr, w ∈ allWrites st := by
  induction h with
  | assign loc b a => intro w hw; exact hw
  | seq _ _ ih1 ih2 =>
    intro w hw
    rcases List.mem_append.1 hw with hw | hw
    · exact List.mem_append_left _ (ih1 w hw)
    · exact List.mem_append_right _ (ih2 w hw)
  | first _ ih => intro w hw; exact List.mem_append_left _ (ih w hw)
  | second _ ih => intro w hw; exact List.mem_append_right _ (ih w hw)
  | _ => intro w hw; cases hw

/-- The non-blocking writes on a path are among those collected. -/
theorem runs_nba {st : Stmt} {tr : List Wr} (h : Runs st tr) :
    ∀ w ∈ tr, w.blocking = false → w ∈ nbaWrites true st := by
  induction h with
  | assign loc b a =>
    intro w hw hb
    have hbw : w.blocking = b := asgWrites_blocking hw
    rw [hb] at hbw
    subst hbw
    cases a <;> simpa [nbaWrites] using hw
  | seq h1 h2 ih1 ih2 =>
    intro w hw hb
    rcases List.mem_append.1 hw with hw | hw
    · exact List.mem_append_left _ (ih1 w hw hb)
    · refine List.mem_append_right _ ?_
      rw [runs_live h1]
      exact ih2 w hw hb
  | first h1 ih1 => intro w hw hb; exact List.mem_append_left _ (ih1 w hw hb)
  | second h1 ih1 => intro w hw hb; exact List.mem_append_right _ (ih1 w hw hb)
  | _ => intro w hw; cases hw

theorem lastAt_exists {b : Bool} {ws : List Wr} {y : Nat} {p : Int}
    (h : ∃ v ∈ ws, Hits b y p v) : ∃ loc, LastAt b ws y p loc := by
  induction ws with
  | nil => obtain ⟨v, hv, _⟩ := h; cases hv
  | cons w ws ih =>
    by_cases hw : ∃ v ∈ ws, Hits b y p v
    · obtain ⟨loc, hl⟩ := ih hw
      exact ⟨loc, lastAt_cons.2 (.inl hl)⟩
    · obtain ⟨v, hv, hh⟩ := h
      rcases List.mem_cons.1 hv with rfl | hv
      · exact ⟨_, lastAt_cons.2 (.inr ⟨fun u hu hc => hw ⟨u, hu, hc⟩, hh, rfl⟩)⟩
      · exact absurd ⟨v, hv, hh⟩ hw

/-- C34: for a block of blocking assignments, the assignments recorded for a bit at the end are
exactly those that are last on some control path. Limited to written ranges with at most one boundary
strictly inside each (`Plain`); see `reaching_definitions_wrong` for what happens otherwise. -/
theorem reaching_definitions_partial {c : DfaCtx} {net : NetGraph} (h : Ready c net) {st : Stmt}
    (hp : Plain (allWrites st)) (hl : live st = true) (hb : ∀ w ∈ allWrites st, w.blocking = true) :
    ∃ s, ({ net := net } : Dfa).runBlock c st = .ok s ∧
      (∀ sym p d, Drives s.trk s.cur.drv sym p d → ∃ loc, IsAssign s.net d loc) ∧
      ∀ sym p loc, (∃ d, Drives s.trk s.cur.drv sym p d ∧ IsAssign s.net d loc) ↔
        ∃ tr, Runs st tr ∧ LastAt true tr sym p loc := by
  obtain ⟨s, h1, h2, h3⟩ := block_drivers_partial h hp hl
  refine ⟨s, h1, h2, fun sym p loc => (h3 sym p loc).trans ⟨?_, fun h => .inr ⟨?_, h⟩⟩⟩
  · rintro (h | h)
    · obtain ⟨v, hv, _⟩ := lastAt_hits h
      obtain ⟨g1, g2⟩ := nbaWrites_sub hv
      rw [hb v g1] at g2; cases g2
    · exact h.2
  · intro w hw
    obtain ⟨g1, g2⟩ := nbaWrites_sub hw
    rw [hb w g1] at g2; cases g2

/-- C33: a non-blocking assignment that is the last one to a bit on some path is recorded as a driver
of the bit. Limited to bits all of whose non-blocking writes belong to one assignment (and to `Plain`
blocks); see `nonblocking_branch_lost` for two assignments in different branches. -/
theorem nonblocking_recorded_partial {c : DfaCtx} {net : NetGraph} (h : Ready c net) {st : Stmt}
    (hp : Plain (allWrites st)) {tr : List Wr} (hr : Runs st tr) {sym : Nat} {p : Int} {loc : TextLoc}
    (hla : LastAt false tr sym p loc)
    (hone : ∀ w ∈ allWrites st, Hits false sym p w → w.loc = loc) :
    ∃ s d, ({ net := net } : Dfa).runBlock c st = .ok s ∧ Drives s.trk s.cur.drv sym p d ∧
      IsAssign s.net d loc := by
  obtain ⟨s, h1, _, h3⟩ := block_drivers_partial h hp (runs_live hr)
  obtain ⟨v, hv, hh⟩ := lastAt_hits hla
  obtain ⟨loc', pre, w, post, heq, hw, hwl, hpost⟩ :=
    lastAt_exists ⟨v, runs_nba hr v hv hh.1, hh⟩
  have hmem : w ∈ nbaWrites true st := by rw [heq]; simp
  have hloc : w.loc = loc := hone w (nbaWrites_sub hmem).1 hw
  obtain ⟨d, g1, g2⟩ := (h3 sym p loc).2 (.inl ⟨pre, w, post, heq, hw, hloc, hpost⟩)
  exact ⟨s, d, h1, g1, g2⟩

/-- C33: if some path makes a non-blocking write to a bit, some non-blocking assignment in the block
that writes the bit is recorded as its driver, and no other node is. -/
theorem nonblocking_driver_partial {c : DfaCtx} {net : NetGraph} (h : Ready c net) {st : Stmt}
    (hp : Plain (allWrites st)) {tr : List Wr} (hr : Runs st tr) {sym : Nat} {p : Int}
    (hw : ∃ w ∈ tr, Hits false sym p w) :
    ∃ s w, ({ net := net } : Dfa).runBlock c st = .ok s ∧ w ∈ allWrites st ∧ Hits false sym p w ∧
      (∃ d, Drives s.trk s.cur.drv sym p d) ∧
      ∀ d, Drives s.trk s.cur.drv sym p d → IsAssign s.net d w.loc := by
  obtain ⟨s, h1, h2, h3⟩ := block_drivers_partial h hp (runs_live hr)
  obtain ⟨v, hv, hh⟩ := hw
  have hex : ∃ v ∈ nbaWrites true st, Hits false sym p v := ⟨v, runs_nba hr v hv hh.1, hh⟩
  obtain ⟨loc, hla⟩ := lastAt_exists hex
  obtain ⟨pre, w, post, heq, hw, hwl, hpost⟩ := hla
  have hmem : w ∈ nbaWrites true st := by rw [heq]; simp
  refine ⟨s, w, h1, (nbaWrites_sub hmem).1, hw, ?_, ?_⟩
  · obtain ⟨d, hd, _⟩ := (h3 sym p loc).2 (.inl ⟨pre, w, post, heq, hw, hwl, hpost⟩)
    exact ⟨d, hd⟩
  · intro d hd
    obtain ⟨l, hl⟩ := h2 sym p d hd
    rcases (h3 sym p l).1 ⟨d, hd, hl⟩ with ⟨pre', w', post', heq', hw', hwl', hpost'⟩ | ⟨hno, _⟩
    · -- both decompositions end at the last hit
      have : w' = w := by
        have hlast : ∀ {x y : Wr} {p1 p2 q1 q2 : List Wr}, p1 ++ x :: q1 = p2 ++ y :: q2 →
            Hits false sym p x → Hits false sym p y → (∀ z ∈ q1, ¬ Hits false sym p z) →
            (∀ z ∈ q2, ¬ Hits false sym p z) → x = y := by
          intro x y p1
          induction p1 with
          | nil =>
            intro p2 q1 q2 he hx hy h1 h2
            cases p2 with
            | nil => simp only [List.nil_append, List.cons.injEq] at he; exact he.1
            | cons z p2 =>
              simp only [List.nil_append, List.cons_append, List.cons.injEq] at he
              exact absurd hy (h1 y (by rw [he.2]; simp))
          | cons z p1 ih =>
            intro p2 q1 q2 he hx hy h1 h2
            cases p2 with
            | nil =>
              simp only [List.nil_append, List.cons_append, List.cons.injEq] at he
              exact absurd hx (h2 x (by rw [← he.2]; simp))
            | cons z' p2 =>
              simp only [List.cons_append, List.cons.injEq] at he
              exact ih he.2 hx hy h1 h2
        exact hlast (heq'.symm.trans heq) hw' hw hpost' hpost
      subst this
      rw [hwl']; exact hl
    · exact absurd hw (hno w hmem)

/-! ### C32: reads -/

/-- C32: a read of a range, made for node `n` after any statement. There is an edge to `n` from every
assignment that is, for some bit of the range, the last to write it on some path; every bit of the
range that no path writes is queued for `n` (for a modport port the edges come from the variables
behind it, at once); and nothing else is added, except that the top bit of the range may be queued in
any case. Limited to `Plain` blocks and to ranges that line up with the writes (`ReadFits`); see
`read_overlap_lost`. -/
theorem read_linked_partial {c : DfaCtx} {net : NetGraph} (h : Ready c net) {pre : Stmt}
    (hp : Plain (allWrites pre)) (hl : live pre = true) {r : Ref}
    (hf : ReadFits (allWrites pre) r.sym r.bounds) {s : Dfa} {n : Nat}
    (he : ({ net := net } : Dfa).exec c pre = .ok s) (hn : s.cur.node = some n) :
    ∃ s' q, s.handleRvalue c r = .ok s' ∧ s'.queue = s.queue ++ q ∧
      (∀ x ∈ q, x.sym = r.sym ∧ x.node = some n ∧ x.kind = .none) ∧
      (∀ tr p loc, Runs pre tr → InRng r.bounds p → LastAt true tr r.sym p loc →
        ∃ k ∈ s.net.g.nodes, s.net.data k = .assignment loc ∧ Joined s'.net k n) ∧
      (∀ p, InRng r.bounds p → (∀ tr, Runs pre tr → ∀ w ∈ tr, ¬ Hits true r.sym p w) →
        (c.D.kind r.sym ≠ .modportPort → ∃ x ∈ q, InRng x.bounds p) ∧
        (c.D.kind r.sym = .modportPort → ∀ v ∈ c.D.iface r.sym r.lsp, ∀ k,
          c.vars.lookup v.1 v.2 = some k → Joined s'.net k n)) ∧
      (∀ x ∈ q, ∀ p, InRng x.bounds p → InRng r.bounds p ∧
        ((∀ tr, Runs pre tr → ∀ w ∈ tr, ¬ Hits true r.sym p w) ∨ p = r.bounds.upper)) ∧
      ∀ a k, Joined s'.net a k → Joined s.net a k ∨ (k = n ∧
        ((∃ tr p loc, Runs pre tr ∧ InRng r.bounds p ∧ LastAt true tr r.sym p loc ∧
            s.net.data a = .assignment loc) ∨
          (c.D.kind r.sym = .modportPort ∧
            ∃ v ∈ c.D.iface r.sym r.lsp, c.vars.lookup v.1 v.2 = some a))) := by
  obtain ⟨s0, h1, hok, _, h4, hsem⟩ := exec_start h hp (fun w h => h)
  rw [he] at h1; cases h1
  obtain ⟨s', q, g1, g2, g3, g4, g5, g6, g7, g8, g9⟩ := handleRvalue_spec hok r hn hf
  have hdefs := hsem.defs (by rw [h4, hl])
  -- a bit without driver is a bit no path writes
  have hno : ∀ p, (∀ d, ¬ DAt s.trk s.cur.drv r.sym p d) ↔
      ∀ tr, Runs pre tr → ∀ w ∈ tr, ¬ Hits true r.sym p w := by
    intro p
    constructor
    · intro hd tr htr w hw hh
      obtain ⟨loc, hla⟩ := lastAt_exists ⟨w, hw, hh⟩
      obtain ⟨d, hd', _⟩ := (hdefs r.sym p loc).2 ⟨tr, htr, hla⟩
      exact hd d hd'
    · intro hw d hd
      obtain ⟨loc, hloc⟩ := hok.flow.assign _ _ _ hd
      obtain ⟨tr, htr, hla⟩ := (hdefs r.sym p loc).1 ⟨d, hd, hloc⟩
      obtain ⟨w, hwm, hh⟩ := lastAt_hits hla
      exact hw tr htr w hwm hh
  refine ⟨s', q, g1, g3, fun x hx => ?_, ?_, ?_, ?_, ?_⟩
  · obtain ⟨a, b, e, _⟩ := g4 x hx; exact ⟨a, b, e⟩
  · intro tr p loc htr hpb hla
    obtain ⟨d, hd, k, hk, rfl, hkd⟩ := (hdefs r.sym p loc).2 ⟨tr, htr, hla⟩
    exact ⟨k, hk, hkd, g7 p k hpb hd⟩
  · intro p hpb hw
    exact ⟨g6 p hpb ((hno p).2 hw), fun hk v hv k hlk => g8 p hpb ((hno p).2 hw) hk k ⟨v, hv, hlk⟩⟩
  · intro x hx p hpx
    obtain ⟨a, b⟩ := g5 x hx p hpx
    refine ⟨a, ?_⟩
    rcases b with b | b
    · exact .inl ((hno p).1 b)
    · exact .inr b
  · intro a k hj
    rcases g9 a k hj with hj | ⟨rfl, ⟨p, hpb, hd⟩ | hm⟩
    · exact .inl hj
    · obtain ⟨loc, hloc⟩ := hok.flow.assign _ _ _ hd
      obtain ⟨tr, htr, hla⟩ := (hdefs r.sym p loc).1 ⟨_, hd, hloc⟩
      obtain ⟨_, _, hk', hkd⟩ := hloc
      cases hk'
      exact .inr ⟨rfl, .inl ⟨tr, p, loc, htr, hpb, hla, hkd⟩⟩
    · exact .inr ⟨rfl, .inr hm⟩

/-! ### C60: conditionals control the assignments in their branches -/

theorem quiet_ok {c : DfaCtx} {W : List Wr} (hW : Plain W) {st : Stmt} (hq : Quiet st) :
    ∀ s : Dfa, Ok c W s → ∃ s', s.exec c st = .ok s' ∧ ReadLe s s' := by
  induction hq with
  | skip => intro s hok; exact ⟨s, rfl, ReadLe.refl hok.net⟩
  | reads rs => intro s hok; exact readRefs_ok hW true rs hok
  | seq _ _ ih1 ih2 =>
    intro s hok
    obtain ⟨s1, h1, h2⟩ := ih1 s hok
    obtain ⟨s2, g1, g2⟩ := ih2 s1 (h2.ok hok)
    exact ⟨s2, by simp only [Dfa.exec, h1, g1], h2.trans g2⟩

/-- There is a new node with data `d`, with an edge from `k`. -/
def NewJoined (d : NodeData) (k : Nat) (s s' : Dfa) : Prop :=
  ∃ n ∈ s'.net.g.nodes, n ∉ s.net.g.nodes ∧ s'.net.data n = d ∧ Joined s'.net k n

theorem newJoined_mono {loc : NodeData} {k : Nat} {s a b s' : Dfa} (h : NewJoined loc k a b)
    (h1 : ∀ n ∈ s.net.g.nodes, n ∈ a.net.g.nodes) (h2 : NetLe b.net s'.net) :
    NewJoined loc k s s' := by
  obtain ⟨n, g1, g2, g3, g4⟩ := h
  exact ⟨n, h2.nodes n g1, fun hn => g2 (h1 n hn), by rw [h2.data n g1]; exact g3, h2.join _ _ g4⟩

theorem heads_ok {c : DfaCtx} {W : List Wr} (hW : Plain W) {st : Stmt} {d : NodeData}
    (hl : Heads st d) : ∀ (s s' : Dfa) (k : Nat), Ok c W s → (∀ w ∈ allWrites st, w ∈ W) →
    s.cur.cond = some k → s.exec c st = .ok s' → NewJoined d k s s' := by
  induction hl with
  | @assign loc l b a hm =>
    intro s s' k hok hw hc he
    obtain ⟨s1, h1, _, h3, _, _, h6, h7⟩ := assign_ok hW hok loc b a hw
    have : s1 = s' := by
      have : s.assign c loc b a = .ok s' := he
      rw [h1] at this; exact Except.ok.inj this
    subst this
    obtain ⟨n, g1, g2, g3⟩ := h6.2 l hm
    exact ⟨n, g1, g2, g3, (h6.1 n g1 g2 _ g3).2 k hc⟩
  | @branch kd loc =>
    intro s s' k hok hw hc he
    obtain ⟨s1, n, h1, _, _, _, _, h6, h7, h8, _, h10, _⟩ := branch_ok hok kd loc
    have : s1 = s' := by
      have : s.branch kd loc = .ok s' := he
      rw [h1] at this; exact Except.ok.inj this
    subst this
    exact ⟨n, h7, h6, h8, (h10 k n).2 (.inr ⟨hc, rfl⟩)⟩
  | @left a b loc _ ih =>
    intro s s' k hok hw hc he
    obtain ⟨s1, h1, h2, h3, _⟩ := exec_ok hW a s hok fun w h => hw w (List.mem_append_left _ h)
    obtain ⟨s2, g1, _, g3, _⟩ := exec_ok hW b s1 h2 fun w h => hw w (List.mem_append_right _ h)
    simp only [Dfa.exec, h1, g1, Except.ok.injEq] at he
    subst he
    exact newJoined_mono (ih s s1 k hok (fun w h => hw w (List.mem_append_left _ h)) hc h1)
      (fun n h => h) g3.net
  | @right a b loc hq _ ih =>
    intro s s' k hok hw hc he
    obtain ⟨s1, h1, h2⟩ := quiet_ok hW hq s hok
    simp only [Dfa.exec, h1] at he
    exact newJoined_mono (ih s1 s' k (h2.ok hok) (fun w h => hw w (List.mem_append_right _ h))
      (by rw [h2.cur]; exact hc) he) h2.net.nodes (NetLe.refl _)
  | @first f a b loc _ ih =>
    intro s s' k hok hw hc he
    obtain ⟨s1, h1, h2, h3, _⟩ := exec_ok hW a s hok fun w h => hw w (List.mem_append_left _ h)
    have hokS : Ok c W ({ s1 with cur := s.cur } : Dfa) :=
      ⟨h2.net, h2.trk, flowOk_mono h3.trk h3.net hok.flow, h2.vars, h2.ext, h2.nba⟩
    obtain ⟨s2, g1, g2, g3, _⟩ := exec_ok hW b _ hokS fun w h => hw w (List.mem_append_right _ h)
    have hflow1 : FlowOk W s2.trk s2.net s1.cur := flowOk_mono g3.trk g3.net h2.flow
    have base := ih s s1 k hok (fun w h => hw w (List.mem_append_left _ h)) hc h1
    simp only [Dfa.exec, h1, g1] at he
    cases f with
    | true =>
      have hok2 : Ok c W ({ s2 with cur := s1.cur } : Dfa) :=
        ⟨g2.net, g2.trk, hflow1, g2.vars, g2.ext, g2.nba⟩
      obtain ⟨s3, k1, _, k3, _⟩ := joinState_ok hW hok2 (other := s2.cur) g2.flow
      simp only [if_true, k1, Except.ok.injEq] at he
      subst he
      exact newJoined_mono base (fun n h => h) (NetLe.trans g3.net k3.net)
    | false =>
      obtain ⟨s3, k1, _, k3, _⟩ := joinState_ok hW g2 (other := s1.cur) hflow1
      simp only [Bool.false_eq_true, if_false, k1, Except.ok.injEq] at he
      subst he
      exact newJoined_mono base (fun n h => h) (NetLe.trans g3.net k3.net)
  | @second f a b loc _ ih =>
    intro s s' k hok hw hc he
    obtain ⟨s1, h1, h2, h3, _⟩ := exec_ok hW a s hok fun w h => hw w (List.mem_append_left _ h)
    have hokS : Ok c W ({ s1 with cur := s.cur } : Dfa) :=
      ⟨h2.net, h2.trk, flowOk_mono h3.trk h3.net hok.flow, h2.vars, h2.ext, h2.nba⟩
    obtain ⟨s2, g1, g2, g3, _⟩ := exec_ok hW b _ hokS fun w h => hw w (List.mem_append_right _ h)
    have hflow1 : FlowOk W s2.trk s2.net s1.cur := flowOk_mono g3.trk g3.net h2.flow
    have base := ih _ s2 k hokS (fun w h => hw w (List.mem_append_right _ h)) hc g1
    simp only [Dfa.exec, h1, g1] at he
    cases f with
    | true =>
      have hok2 : Ok c W ({ s2 with cur := s1.cur } : Dfa) :=
        ⟨g2.net, g2.trk, hflow1, g2.vars, g2.ext, g2.nba⟩
      obtain ⟨s3, k1, _, k3, _⟩ := joinState_ok hW hok2 (other := s2.cur) g2.flow
      simp only [if_true, k1, Except.ok.injEq] at he
      subst he
      exact newJoined_mono base h3.net.nodes k3.net
    | false =>
      obtain ⟨s3, k1, _, k3, _⟩ := joinState_ok hW g2 (other := s1.cur) hflow1
      simp only [Bool.false_eq_true, if_false, k1, Except.ok.injEq] at he
      subst he
      exact newJoined_mono base h3.net.nodes k3.net

theorem leads_heads {st : Stmt} {loc : TextLoc} (h : Leads st loc) : Heads st (.assignment loc) := by
  induction h with
  | assign h => exact .assign h
  | left _ ih => exact .left ih
  | right h _ ih => exact .right h ih
  | first _ ih => exact .first ih
  | second _ ih => exact .second ih

theorem leads_ok {c : DfaCtx} {W : List Wr} (hW : Plain W) {st : Stmt} {loc : TextLoc}
    (hl : Leads st loc) : ∀ (s s' : Dfa) (k : Nat), Ok c W s → (∀ w ∈ allWrites st, w ∈ W) →
    s.cur.cond = some k → s.exec c st = .ok s' → NewJoined (.assignment loc) k s s' :=
  heads_ok hW (leads_heads hl)

/-- Some two nodes with data `u` and `d` are joined. -/
def Paired (net : NetGraph) (u d : NodeData) : Prop :=
  ∃ k ∈ net.g.nodes, ∃ n ∈ net.g.nodes, net.data k = u ∧ net.data n = d ∧ Joined net k n

theorem paired_mono {a b : NetGraph} (h : NetLe a b) {u d : NodeData} (hp : Paired a u d) : Paired b u d := by
  obtain ⟨k, h1, n, h2, h3, h4, h5⟩ := hp
  exact ⟨k, h.nodes k h1, n, h.nodes n h2, by rw [h.data k h1, h3], by rw [h.data n h2, h4], h.join _ _ h5⟩

theorem guards_ok {c : DfaCtx} {W : List Wr} (hW : Plain W) {st : Stmt} {u d : NodeData}
    (hg : Guards st u d) : ∀ (s s' : Dfa), Ok c W s → (∀ w ∈ allWrites st, w ∈ W) →
    s.exec c st = .ok s' → Paired s'.net u d := by
  induction hg with
  | @here k loc t d ht =>
    intro s s' hok hw he
    obtain ⟨s1, n, b1, b2, b3, _, b5, b6, b7, b8, _⟩ := branch_ok hok k loc
    have hsub : ∀ w ∈ allWrites t, w ∈ W := fun w h => hw w (by simp [allWrites, h])
    obtain ⟨s2, e1, e2, e3, _⟩ := exec_ok hW t s1 b3 hsub
    obtain ⟨m, g1, g2, g3, g4⟩ := heads_ok hW ht s1 s2 n b3 hsub b5 e1
    have : s.exec c (.branch k loc) = .ok s1 := b1
    simp only [Dfa.exec] at this he
    simp only [this, e1, Except.ok.injEq] at he
    subst he
    exact ⟨n, e3.net.nodes n b7, m, g1, by rw [e3.net.data n b7]; exact b8, g3, g4⟩
  | @left a b u d _ ih =>
    intro s s' hok hw he
    obtain ⟨s1, h1, h2, h3, _⟩ := exec_ok hW a s hok fun w h => hw w (List.mem_append_left _ h)
    obtain ⟨s2, g1, _, g3, _⟩ := exec_ok hW b s1 h2 fun w h => hw w (List.mem_append_right _ h)
    simp only [Dfa.exec, h1, g1, Except.ok.injEq] at he
    subst he
    exact paired_mono g3.net (ih s s1 hok (fun w h => hw w (List.mem_append_left _ h)) h1)
  | @right a b u d _ ih =>
    intro s s' hok hw he
    obtain ⟨s1, h1, h2, h3, _⟩ := exec_ok hW a s hok fun w h => hw w (List.mem_append_left _ h)
    simp only [Dfa.exec, h1] at he
    exact ih s1 s' h2 (fun w h => hw w (List.mem_append_right _ h)) he
  | @first f a b u d _ ih =>
    intro s s' hok hw he
    obtain ⟨s1, h1, h2, h3, _⟩ := exec_ok hW a s hok fun w h => hw w (List.mem_append_left _ h)
    have hokS : Ok c W ({ s1 with cur := s.cur } : Dfa) :=
      ⟨h2.net, h2.trk, flowOk_mono h3.trk h3.net hok.flow, h2.vars, h2.ext, h2.nba⟩
    obtain ⟨s2, g1, g2, g3, _⟩ := exec_ok hW b _ hokS fun w h => hw w (List.mem_append_right _ h)
    have hflow1 : FlowOk W s2.trk s2.net s1.cur := flowOk_mono g3.trk g3.net h2.flow
    have base := paired_mono g3.net (ih s s1 hok (fun w h => hw w (List.mem_append_left _ h)) h1)
    simp only [Dfa.exec, h1, g1] at he
    cases f with
    | true =>
      obtain ⟨s3, k1, _, k3, _⟩ := joinState_ok hW (c := c) (W := W) (s := { s2 with cur := s1.cur })
        ⟨g2.net, g2.trk, hflow1, g2.vars, g2.ext, g2.nba⟩ (other := s2.cur) g2.flow
      simp only [if_true, k1, Except.ok.injEq] at he
      subst he
      exact paired_mono k3.net base
    | false =>
      obtain ⟨s3, k1, _, k3, _⟩ := joinState_ok hW g2 (other := s1.cur) hflow1
      simp only [Bool.false_eq_true, if_false, k1, Except.ok.injEq] at he
      subst he
      exact paired_mono k3.net base
  | @second f a b u d _ ih =>
    intro s s' hok hw he
    obtain ⟨s1, h1, h2, h3, _⟩ := exec_ok hW a s hok fun w h => hw w (List.mem_append_left _ h)
    have hokS : Ok c W ({ s1 with cur := s.cur } : Dfa) :=
      ⟨h2.net, h2.trk, flowOk_mono h3.trk h3.net hok.flow, h2.vars, h2.ext, h2.nba⟩
    obtain ⟨s2, g1, g2, g3, _⟩ := exec_ok hW b _ hokS fun w h => hw w (List.mem_append_right _ h)
    have hflow1 : FlowOk W s2.trk s2.net s1.cur := flowOk_mono g3.trk g3.net h2.flow
    have base := ih _ s2 hokS (fun w h => hw w (List.mem_append_right _ h)) g1
    simp only [Dfa.exec, h1, g1] at he
    cases f with
    | true =>
      obtain ⟨s3, k1, _, k3, _⟩ := joinState_ok hW (c := c) (W := W) (s := { s2 with cur := s1.cur })
        ⟨g2.net, g2.trk, hflow1, g2.vars, g2.ext, g2.nba⟩ (other := s2.cur) g2.flow
      simp only [if_true, k1, Except.ok.injEq] at he
      subst he
      exact paired_mono k3.net base
    | false =>
      obtain ⟨s3, k1, _, k3, _⟩ := joinState_ok hW g2 (other := s1.cur) hflow1
      simp only [Bool.false_eq_true, if_false, k1, Except.ok.injEq] at he
      subst he
      exact paired_mono k3.net base

/-- C60: after a conditional (or case) statement has been entered, every assignment in its branches
that is not preceded by another assignment or conditional in the same branch gets an edge from the
node of the conditional. Limited to those leading assignments; see `second_assignment_uncontrolled`
for the others. -/
theorem branch_controls_partial {c : DfaCtx} {net : NetGraph} (h : Ready c net) {pre body : Stmt}
    {isCase : Bool} {at_ loc : TextLoc}
    (hp : Plain (allWrites (.seq pre (.seq (.branch isCase at_) body)))) (hl : Leads body loc) :
    ∃ s s', ({ net := net } : Dfa).exec c pre = .ok s ∧
      s.exec c (.seq (.branch isCase at_) body) = .ok s' ∧
      ∃ k n, k ∈ s'.net.g.nodes ∧ n ∈ s'.net.g.nodes ∧ k ∉ s.net.g.nodes ∧ n ∉ s.net.g.nodes ∧
        s'.net.data k = (if isCase then .case at_ else .conditional at_) ∧
        s'.net.data n = .assignment loc ∧ Joined s'.net k n := by
  obtain ⟨s, h1, h2, _⟩ := exec_start h hp (st := pre) (fun w h => List.mem_append_left _ h)
  obtain ⟨s1, k, b1, b2, b3, _, b5, b6, b7, b8, _⟩ := branch_ok h2 isCase at_
  have hsub : ∀ w ∈ allWrites body, w ∈ allWrites (.seq pre (.seq (.branch isCase at_) body)) := by
    intro w h; simp [allWrites, h]
  obtain ⟨s2, e1, e2, e3, _⟩ := exec_ok hp body s1 b3 hsub
  obtain ⟨n, g1, g2, g3, g4⟩ := leads_ok hp hl s1 s2 k b3 hsub b5 e1
  refine ⟨s, s2, h1, ?_, k, n, e3.net.nodes k b7, g1, b6, fun hn => g2 (b2.net.nodes n hn), ?_, g3, g4⟩
  · have : s.exec c (.branch isCase at_) = .ok s1 := b1
    simp only [Dfa.exec] at this ⊢
    simp only [this, e1]
  · rw [e3.net.data k b7]; exact b8

/-- C60: every node an assignment creates has one of its locations, there is one for each of them, and
each has an edge from the pending condition if there is one. -/
theorem assignment_nodes_controlled {c : DfaCtx} {net : NetGraph} (h : Ready c net) {pre : Stmt}
    {loc : TextLoc} {blocking : Bool} {a : Asg}
    (hp : Plain (allWrites (.seq pre (.assign loc blocking a)))) :
    ∃ s s', ({ net := net } : Dfa).exec c pre = .ok s ∧
      s.exec c (.assign loc blocking a) = .ok s' ∧
      (∀ n ∈ s'.net.g.nodes, n ∉ s.net.g.nodes → ∀ l, s'.net.data n = .assignment l →
        l ∈ asgLocs loc a ∧ ∀ k, s.cur.cond = some k → Joined s'.net k n) ∧
      ∀ l ∈ asgLocs loc a, ∃ n ∈ s'.net.g.nodes, n ∉ s.net.g.nodes ∧
        s'.net.data n = .assignment l := by
  obtain ⟨s, h1, h2, _⟩ := exec_start h hp (st := pre) (fun w h => List.mem_append_left _ h)
  obtain ⟨s', g1, _, _, _, _, g6, _⟩ := assign_ok hp h2 loc blocking a
    (fun w h => List.mem_append_right _ h)
  exact ⟨s, s', h1, g1, g6.1, g6.2⟩

/-! ### C61: where branches meet -/

theorem final_ok {c : DfaCtx} {W : List Wr} (hW : Plain W) {st : Stmt} {loc : TextLoc}
    (hl : Final st loc) : ∀ (s s' : Dfa), Ok c W s → (∀ w ∈ allWrites st, w ∈ W) →
    s.exec c st = .ok s' → ∃ n, s'.cur.node = some n ∧ n ∉ s.net.g.nodes ∧ n ∈ s'.net.g.nodes ∧
      s'.net.data n = .assignment loc := by
  induction hl with
  | @assign loc l b a hm =>
    intro s s' hok hw he
    obtain ⟨s1, h1, _, _, _, _, _, h7⟩ := assign_ok hW hok loc b a hw
    have : s1 = s' := by
      have : s.assign c loc b a = .ok s' := he
      rw [h1] at this; exact Except.ok.inj this
    subst this
    obtain ⟨_, n, g1, g2, m, hm, hmn, hmd⟩ := h7 l hm
    cases hmn
    exact ⟨n, g1, g2, hm, hmd⟩
  | @seq a b loc _ ih =>
    intro s s' hok hw he
    obtain ⟨s1, h1, h2, h3, _⟩ := exec_ok hW a s hok fun w h => hw w (List.mem_append_left _ h)
    simp only [Dfa.exec, h1] at he
    obtain ⟨n, g1, g2, g3, g4⟩ := ih s1 s' h2 (fun w h => hw w (List.mem_append_right _ h)) he
    exact ⟨n, g1, fun hn => g2 (h3.net.nodes n hn), g3, g4⟩

theorem mergeNodes_new {s : Dfa} (hr : Reachable s.net) {a b : Nat} (hab : a ≠ b)
    (ha : a ∈ s.net.g.nodes) (hb : b ∈ s.net.g.nodes) :
    ∃ s' m, s.mergeNodes (some a) (some b) = .ok (s', some m) ∧ RhsLe s s' ∧ s'.trk = s.trk ∧
      m ∉ s.net.g.nodes ∧ m ∈ s'.net.g.nodes ∧ s'.net.data m = .merge ∧
      ∀ x, Joined s'.net x m ↔ x = a ∨ x = b := by
  obtain ⟨s0, r0, hm0, hm1, _, _⟩ := mergeNodes_ok hr (a := some a) (b := some b)
    (fun n h => by cases h; exact ha) (fun n h => by cases h; exact hb)
  unfold Dfa.mergeNodes at hm0 ⊢
  simp only [ne_eq, hab, not_false_eq_true, if_true] at hm0 ⊢
  obtain ⟨s1, k, h1, h2, h3, _, h4, h5, h6, h7, h8⟩ := dfa_newNode hr .merge
  have hk : k ∈ s1.net.g.nodes := by rw [h4]; simp
  obtain ⟨s2, g1, g2, g3, _, g4, g5⟩ := dfa_addPlain (s := s1) h2.reach (h2.net.nodes a ha) hk
  obtain ⟨s3, k1, k2, k3, _, k4, k5⟩ := dfa_addPlain (s := s2) g2.reach
    (g2.net.nodes _ (h2.net.nodes b hb)) (g2.net.nodes k hk)
  simp only [h1, g1, k1, Except.ok.injEq, Prod.mk.injEq] at hm0 ⊢
  obtain ⟨rfl, rfl⟩ := hm0
  refine ⟨_, k, ⟨rfl, rfl⟩, hm1, hm1.grow.trk, h5, k2.net.nodes k (g2.net.nodes k hk), ?_, ?_⟩
  · rw [k2.net.data k (g2.net.nodes k hk), g2.net.data k hk, h6]
  · intro x
    rw [k5, g5]
    constructor
    · rintro ((h | ⟨h, _⟩) | ⟨h, _⟩)
      · exact absurd h (h8 x k (.inr rfl))
      · exact .inl h.symm
      · exact .inr h.symm
    · rintro (rfl | rfl)
      · exact .inl (.inr ⟨rfl, rfl⟩)
      · exact .inr ⟨rfl, rfl⟩

theorem joinState_node {c : DfaCtx} {W : List Wr} (hW : Plain W) {s : Dfa} (hok : Ok c W s)
    {other : Flow} (ho : FlowOk W s.trk s.net other) (hr : s.cur.reach = other.reach) {a b : Nat}
    (ha : s.cur.node = some a) (hb : other.node = some b) (hab : a ≠ b) {s' : Dfa}
    (he : s.joinState other = .ok s') :
    ∃ m, s'.cur.node = some m ∧ m ∉ s.net.g.nodes ∧ m ∈ s'.net.g.nodes ∧ s'.net.data m = .merge ∧
      Joined s'.net a m ∧ Joined s'.net b m ∧ NetLe s.net s'.net := by
  unfold Dfa.joinState at he
  rw [if_pos hr] at he
  obtain ⟨drv', h1, h2, h3⟩ := merge_at hW hok.trk hok.flow.drv ho.drv
  obtain ⟨s2, m, g1, g2, g3, g4, g5, g6, g7⟩ := mergeNodes_new
    (s := { s with trk := s.trk, cur := { s.cur with drv := drv' } }) hok.net hab
    (hok.flow.node a ha) (ho.node b hb)
  obtain ⟨s3, k, k1, k2, _, k3⟩ := mergeNodes_ok (s := s2) g2.grow.reach (a := s2.cur.cond)
    (b := other.cond)
    (fun m hm => g2.grow.net.nodes m (hok.flow.cond m (by rw [g2.cur] at hm; exact hm)))
    (fun m hm => g2.grow.net.nodes m (ho.cond m hm))
  rw [← ha, ← hb] at g1
  simp only [Dfa.mergeStates, h1, g1, k1, Except.ok.injEq] at he
  subst he
  exact ⟨m, rfl, g4, k2.grow.net.nodes m g5, by rw [k2.grow.net.data m g5]; exact g6,
    k2.grow.net.join _ _ ((g7 a).2 (.inl rfl)), k2.grow.net.join _ _ ((g7 b).2 (.inr rfl)),
    g2.grow.net.trans k2.grow.net⟩

/-- C61: where two branches meet that are both reachable (or both not) and each end in an assignment,
a new merge node is created with an edge from the last assignment of each branch, and the analysis
continues from it. Limited to `Plain` blocks. -/
theorem branches_merged_partial {c : DfaCtx} {net : NetGraph} (h : Ready c net) {pre a b : Stmt}
    {f : Bool} {la lb : TextLoc} (hp : Plain (allWrites (.seq pre (.choose f a b))))
    (hfa : Final a la) (hfb : Final b lb) (hlive : live a = live b) :
    ∃ s s', ({ net := net } : Dfa).exec c pre = .ok s ∧ s.exec c (.choose f a b) = .ok s' ∧
      ∃ x y m, s'.cur.node = some m ∧ s'.net.data m = .merge ∧ x ≠ y ∧
        s'.net.data x = .assignment la ∧ s'.net.data y = .assignment lb ∧
        Joined s'.net x m ∧ Joined s'.net y m ∧
        x ∈ s'.net.g.nodes ∧ y ∈ s'.net.g.nodes ∧ m ∈ s'.net.g.nodes ∧
        x ∉ s.net.g.nodes ∧ y ∉ s.net.g.nodes ∧ m ∉ s.net.g.nodes := by
  obtain ⟨s, h1, hok, _⟩ := exec_start h hp (st := pre) (fun w h => List.mem_append_left _ h)
  have hwa : ∀ w ∈ allWrites a, w ∈ allWrites (.seq pre (.choose f a b)) := by
    intro w h; simp [allWrites, h]
  have hwb : ∀ w ∈ allWrites b, w ∈ allWrites (.seq pre (.choose f a b)) := by
    intro w h; simp [allWrites, h]
  obtain ⟨s1, a1, a2, a3, a4, _⟩ := exec_ok hp a s hok hwa
  have hokS : Ok c (allWrites (.seq pre (.choose f a b))) ({ s1 with cur := s.cur } : Dfa) :=
    ⟨a2.net, a2.trk, flowOk_mono a3.trk a3.net hok.flow, a2.vars, a2.ext, a2.nba⟩
  obtain ⟨s2, b1, b2, b3, b4, _⟩ := exec_ok hp b _ hokS hwb
  have hflow1 : FlowOk (allWrites (.seq pre (.choose f a b))) s2.trk s2.net s1.cur :=
    flowOk_mono b3.trk b3.net a2.flow
  obtain ⟨x, x1, x2, x3, x4⟩ := final_ok hp hfa s s1 hok hwa a1
  obtain ⟨y, y1, y2, y3, y4⟩ := final_ok hp hfb _ s2 hokS hwb b1
  have y2' : y ∉ s1.net.g.nodes := y2
  have hn12 : NetLe s1.net s2.net := b3.net
  have hxy : x ≠ y := fun he => y2' (he ▸ x3)
  have hreach : s1.cur.reach = s2.cur.reach := by
    rw [a4, b4, hlive]
  cases f with
  | true =>
    have hok2 : Ok c (allWrites (.seq pre (.choose true a b))) ({ s2 with cur := s1.cur } : Dfa) :=
      ⟨b2.net, b2.trk, hflow1, b2.vars, b2.ext, b2.nba⟩
    obtain ⟨s3, k1, _⟩ := joinState_ok hp hok2 (other := s2.cur) b2.flow
    obtain ⟨m, m1, m2, m3, m4, m5, m6, m7⟩ := joinState_node hp hok2 b2.flow hreach x1 y1 hxy k1
    have m7' : NetLe s2.net s3.net := m7
    have m2' : m ∉ s2.net.g.nodes := m2
    refine ⟨s, s3, h1, by simp only [Dfa.exec, a1, b1, if_true, k1], x, y, m, m1, m4, hxy, ?_, ?_, m5,
      m6, m7'.nodes x (hn12.nodes x x3), m7'.nodes y y3, m3, x2,
      fun hn => y2' (a3.net.nodes y hn), fun hn => m2' (hn12.nodes m (a3.net.nodes m hn))⟩
    · rw [m7'.data x (hn12.nodes x x3), hn12.data x x3]; exact x4
    · rw [m7'.data y y3]; exact y4
  | false =>
    obtain ⟨s3, k1, _⟩ := joinState_ok hp b2 (other := s1.cur) hflow1
    obtain ⟨m, m1, m2, m3, m4, m5, m6, m7⟩ := joinState_node hp b2 hflow1 hreach.symm y1 x1 hxy.symm k1
    refine ⟨s, s3, h1, by simp only [Dfa.exec, a1, b1, Bool.false_eq_true, if_false, k1], x, y, m, m1,
      m4, hxy, ?_, ?_, m6, m5, m7.nodes x (hn12.nodes x x3), m7.nodes y y3, m3, x2,
      fun hn => y2' (a3.net.nodes y hn), fun hn => m2 (hn12.nodes m (a3.net.nodes m hn))⟩
    · rw [m7.data x (hn12.nodes x x3), hn12.data x x3]; exact x4
    · rw [m7.data y y3]; exact y4

/-! ### Concrete blocks -/

/-- A design of ordinary variables; signal 9 is a modport port. -/
def flowCtx : DfaCtx :=
  ⟨⟨fun n => ⟨[], [Char.ofNat (97 + n)], {}⟩, fun n => if n = 9 then .modportPort else .other,
    fun _ => 8, fun _ => none, fun _ _ => []⟩, fun _ => [], none⟩

theorem flow_ready : Ready flowCtx {} :=
  ⟨⟨[], rfl⟩, fun y b n h => by simp [flowCtx, VarTab.lookup, imFind] at h, fun n h => by simp [flowCtx] at h⟩

/-- The location on line `n`. -/
def ln (n : Nat) : TextLoc := ⟨0, n, 1⟩

/-- A use of bits `lo` to `hi` of signal `y` as target, and as source. -/
def wrt (y : Nat) (lo hi : Int) : Note := ⟨true, ⟨y, ⟨lo, hi⟩, 0, false⟩⟩
def rdt (y : Nat) (lo hi : Int) : Note := ⟨false, ⟨y, ⟨lo, hi⟩, 0, false⟩⟩

/-- A blocking assignment on line `n`; a non-blocking one; a bit-aligned non-blocking one. -/
def blk (n : Nat) (notes : List Note) : Stmt := .assign (ln n) true (.legacy notes)
def nbl (n : Nat) (notes : List Note) : Stmt := .assign (ln n) false (.legacy notes)
def nba1 (n : Nat) (y : Nat) (lo hi : Int) : Stmt :=
  .assign (ln n) false (.aligned [⟨[⟨y, ⟨lo, hi⟩, 0, false⟩], [.padding], ln n⟩])

/-- The state after a whole block, and after a statement. -/
def blockEnd (st : Stmt) : Dfa := (({ net := {} } : Dfa).runBlock flowCtx st).toOption.getD { net := {} }
def stmtEnd (st : Stmt) : Dfa := (({ net := {} } : Dfa).exec flowCtx st).toOption.getD { net := {} }

/-- The lines of the assignments recorded as drivers of a bit. -/
def linesAt (s : Dfa) (y : Nat) (p : Int) : List Nat :=
  match s.trk.intervals s.cur.drv y ⟨p, p⟩ with
  | .error _ => []
  | .ok out => out.flatMap fun x => x.2.map fun i =>
      match i.node with
      | none => 0
      | some n => match s.net.data n with
        | .assignment l => l.line
        | _ => 0

/-- The nodes reached from a node by one edge. -/
def nextOf (s : Dfa) (n : Nat) : List Nat := (s.net.g.obj n).outE.map Edge.tgt

/-- `a[7:0] = …; if (…) a[3:0] = …; else a[7:0] = …;` -/
def sample : Stmt := .seq (blk 1 [wrt 0 0 7]) (.seq (.branch false (ln 2))
  (.choose true (blk 3 [wrt 0 0 3]) (blk 4 [wrt 0 0 7])))

theorem plain_of_two {W : List Wr} {lo mid hi : Int} (h1 : -2147483648 ≤ lo) (h2 : hi < 2147483647)
    (h : ∀ w ∈ W, w.bounds = ⟨lo, mid⟩ ∨ w.bounds = ⟨mid + 1, hi⟩ ∨ w.bounds = ⟨lo, hi⟩)
    (hm : lo ≤ mid) (hh : mid < hi) : Plain W := by
  have hb : ∀ w ∈ W, (w.bounds.lower = lo ∨ w.bounds.lower = mid + 1) ∧
      (w.bounds.upper = mid ∨ w.bounds.upper = hi) := by
    intro w hw
    rcases h w hw with h | h | h <;> rw [h] <;> simp only [BitRange.lower, BitRange.upper] <;> omega
  refine ⟨fun w hw => ?_, ?_⟩
  · have := hb w hw; omega
  · rintro w hw j k ⟨a, ha, _, ha'⟩ ⟨b, hb', _, hb''⟩ g1 g2 g3
    have := hb w hw
    have := hb a ha
    have := hb b hb'
    omega

theorem sample_plain : Plain (allWrites sample) :=
  plain_of_two (lo := 0) (mid := 3) (hi := 7) (by decide) (by decide)
    (by
      intro w hw
      simp only [sample, allWrites, blk, asgWrites, targets, wrt] at hw
      simp at hw
      rcases hw with rfl | rfl | rfl <;> simp) (by decide) (by decide)

/-- The hypotheses of `reaching_definitions_partial` are met; bit 7 comes from line 1 or 4, bit 0 from
line 3 or 4. -/
example : Plain (allWrites sample) ∧ live sample = true ∧
    (∀ w ∈ allWrites sample, w.blocking = true) ∧
    linesAt (blockEnd sample) 0 7 = [1, 4] ∧ linesAt (blockEnd sample) 0 0 = [3, 4] :=
  ⟨sample_plain, by decide, by decide, by decide, by decide⟩

/-- C34 is false in general. In `a[7:0] = …; a[4:3] = …; if (…) ; else a[2:0] = …;` the assignment on
line 4, which writes bits 0 to 2, is recorded as a driver of bit 7. -/
theorem reaching_definitions_wrong :
    let st := Stmt.seq (blk 1 [wrt 0 0 7]) (.seq (blk 2 [wrt 0 3 4]) (.seq (.branch false (ln 3))
      (.choose true .skip (blk 4 [wrt 0 0 2]))))
    linesAt (blockEnd st) 0 7 = [1, 4] ∧ ∀ tr, Runs st tr → ¬ LastAt true tr 0 7 (ln 4) := by
  refine ⟨by decide, ?_⟩
  have hno : ∀ w ∈ allWrites (Stmt.seq (blk 1 [wrt 0 0 7]) (.seq (blk 2 [wrt 0 3 4])
      (.seq (.branch false (ln 3)) (.choose true .skip (blk 4 [wrt 0 0 2]))))),
      Hits true 0 7 w → w.loc ≠ ln 4 := by
    intro w hw
    simp only [allWrites, blk, asgWrites, targets, wrt] at hw
    simp at hw
    rcases hw with rfl | rfl | rfl
    · intro _; decide
    · rintro ⟨_, _, h⟩; simp [InRng] at h
    · rintro ⟨_, _, h⟩; simp [InRng] at h
  intro tr htr ⟨pre, w, post, heq, hw, hl, _⟩
  refine hno w (runs_all htr w (by rw [heq]; simp)) hw hl

/-- C33 is false in general: of `if (…) r <= a; else r <= b;` only line 3 is recorded. -/
theorem nonblocking_branch_lost :
    let st := Stmt.seq (.branch false (ln 1)) (.choose true (nbl 2 [wrt 0 0 7]) (nbl 3 [wrt 0 0 7]))
    (∃ tr, Runs st tr ∧ LastAt false tr 0 7 (ln 2)) ∧ linesAt (blockEnd st) 0 7 = [3] := by
  refine ⟨⟨_, .seq (.branch _ _) (.first (.assign _ _ _)), [], ⟨0, ⟨0, 7⟩, ln 2, false⟩, [], by rfl,
    ⟨rfl, rfl, ?_⟩, rfl, by simp⟩, by decide⟩
  simp [InRng]

/-- An assignment in code that no path reaches is recorded, and hides the one that is executed, if it
is handled bit by bit: `r <= a` followed by an unreachable `r <= b`. Handled as a whole it is not. -/
theorem dead_nonblocking_recorded :
    let st := fun (late : Stmt) => Stmt.seq (nba1 1 0 0 7) (.choose true .skip (.seq .dead late))
    linesAt (blockEnd (st (nba1 2 0 0 7))) 0 7 = [2] ∧
    linesAt (blockEnd (st (nbl 2 [wrt 0 0 7]))) 0 7 = [1] ∧
    ∀ late tr, Runs (st late) tr → tr = asgWrites (ln 1) false
      (.aligned [⟨[⟨0, ⟨0, 7⟩, 0, false⟩], [.padding], ln 1⟩]) := by
  refine ⟨by decide, by decide, ?_⟩
  intro late tr h
  cases h with
  | seq h1 h2 =>
    cases h1
    cases h2 with
    | first h => cases h; simp
    | second h =>
      cases h with
      | seq h _ => cases h

/-- The hypotheses of `nonblocking_recorded_partial` are met by `r[3:0] <= a; if (…) r[7:4] <= b;`. -/
example :
    let st := Stmt.seq (nbl 1 [wrt 0 0 3]) (.seq (.branch false (ln 2))
      (.choose true (nbl 3 [wrt 0 4 7]) .skip))
    Plain (allWrites st) ∧ (∃ tr, Runs st tr ∧ LastAt false tr 0 7 (ln 3)) ∧
    (∀ w ∈ allWrites st, Hits false 0 7 w → w.loc = ln 3) ∧
    linesAt (blockEnd st) 0 7 = [3] ∧ linesAt (blockEnd st) 0 2 = [1] := by
  refine ⟨?_, ⟨_, .seq (.assign _ _ _) (.seq (.branch _ _) (.first (.assign _ _ _))), ?_⟩, ?_,
    by decide, by decide⟩
  · refine plain_of_two (lo := 0) (mid := 3) (hi := 7) (by decide) (by decide) ?_ (by decide) (by decide)
    intro w hw
    simp only [allWrites, nbl, asgWrites, targets, wrt] at hw
    simp at hw
    rcases hw with rfl | rfl <;> simp
  · exact ⟨[⟨0, ⟨0, 3⟩, ln 1, false⟩], ⟨0, ⟨4, 7⟩, ln 3, false⟩, [], by rfl,
      ⟨rfl, rfl, by simp [InRng]⟩, rfl, by simp⟩
  · intro w hw
    simp only [allWrites, nbl, asgWrites, targets, wrt] at hw
    simp at hw
    rcases hw with rfl | rfl
    · rintro ⟨_, _, h⟩; simp [InRng] at h
    · intro _; rfl

/-- The hypotheses of `read_linked_partial` are met: after `a[3:0] = …; b = …` (whose node is 1), the
read of `a[7:0]` for that node adds an edge from the first assignment and queues bits 4 to 7. -/
example :
    let pre := Stmt.seq (blk 1 [wrt 0 0 3]) (blk 2 [wrt 1 0 7])
    Plain (allWrites pre) ∧ live pre = true ∧ ReadFits (allWrites pre) 0 ⟨0, 7⟩ ∧
    (stmtEnd pre).cur.node = some 1 ∧
    nextOf (stmtEnd (.seq (blk 1 [wrt 0 0 3]) (blk 2 [wrt 1 0 7, rdt 0 0 7]))) 0 = [1] ∧
    (stmtEnd (.seq (blk 1 [wrt 0 0 3]) (blk 2 [wrt 1 0 7, rdt 0 0 7]))).queue =
      [⟨0, ⟨4, 7⟩, some 1, .none⟩] := by
  refine ⟨?_, by decide, .inl ?_, by decide, by decide, by decide⟩
  · refine plain_of_two (lo := 0) (mid := 3) (hi := 7) (by decide) (by decide) ?_ (by decide) (by decide)
    intro w hw
    simp only [allWrites, blk, asgWrites, targets, wrt] at hw
    simp at hw
    rcases hw with rfl | rfl <;> simp
  · intro w hw
    simp only [allWrites, blk, asgWrites, targets, wrt] at hw
    simp at hw
    rcases hw with rfl | rfl
    · intro _ _ p h; simp [InRng] at h ⊢; omega
    · intro h; cases h

/-- C32 is false in general: after `a[3:0] = …;` the read of `a[5:2]` in `b = a[5:2]` (node 1) is not
linked to the assignment (node 0), and bits 2 and 3 are not queued either. -/
theorem read_overlap_lost :
    let s := stmtEnd (.seq (blk 1 [wrt 0 0 3]) (blk 2 [wrt 1 0 3, rdt 0 2 5]))
    s.net.data 0 = .assignment (ln 1) ∧ s.net.data 1 = .assignment (ln 2) ∧
    nextOf s 0 = [] ∧ s.queue = [⟨0, ⟨4, 5⟩, some 1, .none⟩] :=
  ⟨by rfl, by rfl, by decide, by decide⟩

/-- An assignment that reads its own target is linked to itself instead of the earlier definition:
`a = b; a = a + 1;`. -/
theorem self_assignment_reads_itself :
    let s := stmtEnd (.seq (blk 1 [wrt 0 0 7, rdt 1 0 7]) (blk 2 [wrt 0 0 7, rdt 0 0 7]))
    s.net.data 0 = .assignment (ln 1) ∧ s.net.data 1 = .assignment (ln 2) ∧
    nextOf s 0 = [] ∧ nextOf s 1 = [1] :=
  ⟨by rfl, by rfl, by decide, by decide⟩

/-- After a conditional with two empty branches the current node is lost: a later read that is not
part of an assignment is queued without a node (and then ignored, see `pending_read_exact`). -/
theorem empty_branches_lose_node :
    let s := stmtEnd (.seq (.branch false (ln 1)) (.choose true .skip .skip))
    s.cur.node = none ∧
    (stmtEnd (.seq (.seq (.branch false (ln 1)) (.choose true .skip .skip))
      (.reads [⟨0, ⟨0, 7⟩, 0, false⟩]))).queue = [⟨0, ⟨0, 7⟩, none, .none⟩] :=
  ⟨by decide, by decide⟩

/-- The hypotheses of `branch_controls_partial` and `branches_merged_partial` are met. -/
example : let body := Stmt.choose true (blk 3 [wrt 0 0 3]) (.seq .skip (blk 4 [wrt 0 0 7]))
    Leads body (ln 3) ∧ Leads body (ln 4) ∧ Final (blk 3 [wrt 0 0 3]) (ln 3) ∧
    Final (.seq .skip (blk 4 [wrt 0 0 7])) (ln 4) ∧
    nextOf (stmtEnd (.seq (.branch false (ln 2)) body)) 0 = [1, 2] ∧
    nextOf (stmtEnd (.seq (.branch false (ln 2)) body)) 1 = [3] ∧
    nextOf (stmtEnd (.seq (.branch false (ln 2)) body)) 2 = [3] :=
  ⟨.first (.assign (by simp [asgLocs])), .second (.right .skip (.assign (by simp [asgLocs]))),
    .assign rfl, .seq (.assign rfl), by decide, by decide, by decide⟩

/-- C60 is false for further assignments in a branch: in `if (…) begin a = …; b = …; end` the
conditional (node 0) has an edge to the first assignment only. -/
theorem second_assignment_uncontrolled :
    let s := stmtEnd (.seq (.branch false (ln 1))
      (.choose true (.seq (blk 2 [wrt 0 0 7]) (blk 3 [wrt 1 0 7])) .skip))
    s.net.data 0 = .conditional (ln 1) ∧ s.net.data 1 = .assignment (ln 2) ∧
    s.net.data 2 = .assignment (ln 3) ∧ nextOf s 0 = [1, 3] ∧ s.net.data 3 = .merge :=
  ⟨by rfl, by rfl, by rfl, by decide, by rfl⟩

/-- An assignment after a conditional without `else` gets an edge from the conditional although it is
always executed: `if (…) a = …; b = …;`. -/
theorem later_assignment_controlled :
    let s := stmtEnd (.seq (.branch false (ln 1))
      (.seq (.choose true (blk 2 [wrt 0 0 7]) .skip) (blk 3 [wrt 1 0 7])))
    s.net.data 0 = .conditional (ln 1) ∧ s.net.data 2 = .merge ∧ s.net.data 3 = .assignment (ln 3) ∧
    nextOf s 0 = [1, 2, 3] :=
  ⟨by rfl, by rfl, by rfl, by decide⟩

end Verif.Props

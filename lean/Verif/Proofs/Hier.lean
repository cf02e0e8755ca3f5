import Verif.Proofs.Phase1

/-! Helper lemmas for Phase 1: what the events of ports and connections mean for the state at the
end. -/
namespace Verif.Proofs
open Verif.Spec Verif.Model Verif.Props

/-- The traversal of a design and its result. -/
structure Walked (E : TravEnv) (es : List Event) (c : Col) : Prop where
  ok : ∀ ev ∈ es, EventOk E.D ev
  once : (es.flatMap declares).Nodup
  run : Col.steps E {} es = .ok c

theorem walked {E : TravEnv} {boxed : Str → Str → Bool} {top : List Member} (h : Elaborated E boxed top) :
    ∃ c, phase1 E top = .ok c ∧ Walked E (eventsAll boxed E.opts.propCuts top) c ∧
      StepsEff E (eventsAll boxed E.opts.propCuts top) {} c := by
  obtain ⟨c, a1, a2⟩ := steps_ok _ (fine_start E.D) h.ok
  exact ⟨c, by rw [phase1, visitAll_steps h.boxes]; exact a1, ⟨h.ok, h.once, a1⟩, a2⟩

theorem Walked.eff {E : TravEnv} {es : List Event} {c : Col} (h : Walked E es c) : StepsEff E es {} c := by
  obtain ⟨c', a1, a2⟩ := steps_ok _ (fine_start E.D) h.ok
  rw [h.run] at a1; cases a1
  exact a2

/-- The nodes of a port at the end. -/
theorem port_at {E : TravEnv} {es : List Event} {c : Col} (h : Walked E es c) {p : PortDecl} (hp : .port p ∈ es) :
    (∀ x j, HasBit p x j → ∃ e ∈ c.b.vars p.sym, e.lo ≤ j ∧ (j : Int) ≤ e.hi) ∧
    (∀ x, p.inner = some x → ∀ e ∈ c.b.vars p.sym, c.b.net.data e.val = portData E p x ⟨e.lo, e.hi⟩) ∧
    (∀ x lo hi, Spans E c.cuts p x lo hi → ∃ e ∈ c.b.vars p.sym, e.lo ≤ lo ∧ hi ≤ e.hi) ∧
    ∀ x (j : Nat), LastSupply es x j p → ∃ e ∈ c.b.vars p.sym, e.lo ≤ j ∧ (j : Int) ≤ e.hi ∧
      ∃ l1 r l2, c.hist = l1 ++ r :: l2 ∧ Covers r x j ∧ HasN r.2.drivers (some e.val) ∧
        ∀ r' ∈ l2, Covers r' x j → r'.2.merge = true := by
  have key : ∀ pre post, es = pre ++ .port p :: post → ∃ c0 c1, PortEff E p c0 c1 ∧ c0.b.vars p.sym = [] ∧
      c.b.vars p.sym = c1.b.vars p.sym ∧ StepsEff E post c1 c ∧
      (∀ y l, c0.cuts y = some l → ∃ l', c.cuts y = some l' ∧ ∀ k ∈ l, k ∈ l') := by
    rintro pre post rfl
    obtain ⟨c0, c1, a1, a2, a3, a4, a5, a6⟩ := steps_at (fine_start E.D) h.ok h.run
    obtain ⟨o1, o2⟩ := once_split (y := p.sym) h.once (by simp [declares])
    obtain ⟨c1', b1, b2⟩ := port_ok a2.fine (h.ok (.port p) (by simp))
    rw [a3] at b1; cases b1
    refine ⟨c0, c1, b2, a2.fixed o1, a6.fixed o2, a6, ?_⟩
    intro y l hl
    obtain ⟨l1, h1, h2⟩ := a4.grew.cuts y l hl
    obtain ⟨l2, h3, h4⟩ := a6.grew.cuts y l1 h1
    exact ⟨l2, h3, fun k hk => h4 k (h2 k hk)⟩
  obtain ⟨pre, post, he⟩ := List.append_of_mem hp
  obtain ⟨c0, c1, k1, k2, k3, k4, k5⟩ := key pre post he
  refine ⟨?_, ?_, ?_, ?_⟩
  · intro x j hb
    obtain ⟨e, he, h1, h2, _⟩ := k1.has x j hb
    exact ⟨e, by rw [k3]; exact he, h1, h2⟩
  · intro x hx e he
    rw [k3] at he
    rw [k4.grew.net.data _ (k1.fine.ok.vars _ e he).1]
    rcases k1.new x hx e he with h1 | ⟨h1, _⟩
    · rw [k2] at h1; cases h1
    · exact h1
  · rintro x lo hi ⟨h1, h2, ⟨d, hd, h3, h4⟩, h5⟩
    obtain ⟨e, he, h6⟩ := k1.holds x h1 d hd lo hi h3 h2 h4 (fun hpc l hl k hk => by
      obtain ⟨l', g1, g2⟩ := k5 x l hl
      exact h5 hpc l' g1 k (g2 k hk))
    exact ⟨e, by rw [k3]; exact he, h6⟩
  · rintro x j ⟨pre, post, he, hs, hno⟩
    obtain ⟨c0, c1, k1, k2, k3, k4, k5⟩ := key pre post he
    obtain ⟨l, h1, h2, h3, h4⟩ := k1.hist
    obtain ⟨g, g1, g2⟩ := k4.hist
    obtain ⟨r0, hr0, hc0⟩ := (h4 x j).2 hs
    -- the last recording of the port that has the bit
    have hlast : ∀ m : List (Nat × Rec), (∃ r ∈ m, Covers r x j) →
        ∃ m1 r m2, m = m1 ++ r :: m2 ∧ Covers r x j ∧ ∀ r' ∈ m2, ¬ Covers r' x j := by
      intro m
      induction m with
      | nil => rintro ⟨r, hr, _⟩; cases hr
      | cons a m ih =>
        rintro ⟨r, hr, hc⟩
        by_cases hm : ∃ r ∈ m, Covers r x j
        · obtain ⟨m1, r, m2, rfl, e2, e3⟩ := ih hm
          exact ⟨a :: m1, r, m2, rfl, e2, e3⟩
        · rcases List.mem_cons.1 hr with rfl | hr
          · exact ⟨[], r, m, rfl, hc, fun r' hr' hc' => hm ⟨r', hr', hc'⟩⟩
          · exact absurd ⟨r, hr, hc⟩ hm
    obtain ⟨m1, r, m2, rfl, e2, e3⟩ := hlast l ⟨r0, hr0, hc0⟩
    obtain ⟨n, f1, f2, f3, f4, f5, f6⟩ := h3 r (by simp)
    have hj := e2.2
    obtain ⟨b1, b2⟩ := bounds_lower f5
    rw [inRng_iff, b1, b2] at hj
    refine ⟨_, by rw [k3]; exact f2, hj.1, hj.2, c0.hist ++ m1, r, m2 ++ g, by rw [g1, h1]; simp, e2, ?_, ?_⟩
    · rw [f1]; exact ⟨_, List.mem_singleton.2 rfl, rfl⟩
    · intro r' hr' hc'
      rcases List.mem_append.1 hr' with hr' | hr'
      · exact absurd hc' (e3 r' hr')
      · cases hm : r'.2.merge with
        | true => rfl
        | false =>
          obtain ⟨q, q1, q2⟩ := g2 r' hr' hm x j hc'
          exact absurd q2 (hno q q1)

/-- A node of a port begins and ends where a driver or a registered cut of the port does. -/
theorem port_ends {E : TravEnv} {es : List Event} {c : Col} (h : Walked E es c) {p : PortDecl} (hp : .port p ∈ es)
    {x : Nat} (hx : p.inner = some x) {e : Ivl Nat} (he : e ∈ c.b.vars p.sym) : ∃ d ∈ p.drivers,
      (d.lo : Int) ≤ e.lo ∧ e.hi ≤ d.hi ∧
      (e.lo = d.lo ∨ E.opts.propCuts = true ∧ ∃ l, c.cuts x = some l ∧ ∃ k ∈ l, e.lo = (k : Int)) ∧
      (e.hi = d.hi ∨ E.opts.propCuts = true ∧ ∃ l, c.cuts x = some l ∧ ∃ k ∈ l, e.hi + 1 = (k : Int)) := by
  obtain ⟨pre, post, rfl⟩ := List.append_of_mem hp
  obtain ⟨c0, c1, a1, a2, a3, a4, a5, a6⟩ := steps_at (fine_start E.D) h.ok h.run
  obtain ⟨o1, o2⟩ := once_split (y := p.sym) h.once (by simp [declares])
  obtain ⟨c1', b1, b2⟩ := port_ok a2.fine (h.ok (.port p) (by simp))
  rw [a3] at b1; cases b1
  have hcut : ∀ {n : Int}, (E.opts.propCuts = true ∧ ∃ l, c0.cuts x = some l ∧ ∃ k ∈ l, n = (k : Int)) →
      E.opts.propCuts = true ∧ ∃ l, c.cuts x = some l ∧ ∃ k ∈ l, n = (k : Int) := by
    rintro n ⟨hpc, l, hl, k, hk, hn⟩
    obtain ⟨l1, h1, h2⟩ := a4.grew.cuts x l hl
    obtain ⟨l2, h3, h4⟩ := a6.grew.cuts x l1 h1
    exact ⟨hpc, l2, h3, k, h4 k (h2 k hk), hn⟩
  rw [a6.fixed o2] at he
  rcases b2.ends x hx e he with h1 | ⟨d, hd, h1, h2, h3, h4⟩
  · rw [a2.fixed o1] at h1; cases h1
  · exact ⟨d, hd, h1, h2, h3.imp id hcut, h4.imp id hcut⟩

theorem last_split {α : Type} {a : α} {l : List α} (h : a ∈ l) : ∃ l1 l2, l = l1 ++ a :: l2 ∧ a ∉ l2 := by
  induction l with
  | nil => cases h
  | cons b l ih =>
    by_cases hl : a ∈ l
    · obtain ⟨l1, l2, rfl, h2⟩ := ih hl
      exact ⟨b :: l1, l2, rfl, h2⟩
    · rcases List.mem_cons.1 h with rfl | h
      · exact ⟨[], l, rfl, hl⟩
      · exact absurd h hl

theorem before_last {α : Type} {a b : α} {l1 l2 l3 pre post : List α}
    (h : l1 ++ a :: (l2 ++ b :: l3) = pre ++ b :: post) (hb : b ∉ post) : a ∈ pre := by
  rcases List.append_eq_append_iff.1 h with ⟨as, h1, h2⟩ | ⟨bs, h1, h2⟩
  · cases as with
    | nil =>
      simp only [List.nil_append, List.cons.injEq] at h2
      exact absurd (by rw [← h2.2]; simp) hb
    | cons x as =>
      simp only [List.cons_append, List.cons.injEq] at h2
      rw [h1, h2.1]; simp
  · cases bs with
    | nil =>
      simp only [List.nil_append, List.cons.injEq] at h2
      exact absurd (by rw [h2.2]; simp) hb
    | cons x bs =>
      simp only [List.cons_append, List.cons.injEq] at h2
      exact absurd (by rw [h2.2]; simp) hb

/-- What a connection means for the state at the end. -/
theorem connect_at {E : TravEnv} {es : List Event} {c : Col} (h : Walked E es c) {p : PortDecl} {k : Conn} {i : Option Nat}
    (hb : Before es p k) (hf : k.formal = .port p.sym i) (hs : Simple E.opts E.D k) {j y q : Nat}
    (ht : Ties E.opts E.D k p.sym j y q) {e : Ivl Nat} (he : e ∈ c.b.vars p.sym) (h1 : e.lo ≤ j) (h2 : (j : Int) ≤ e.hi) :
    (k.output = false → E.D.kind y ≠ .modportPort →
      ∃ b, InRng b q ∧ (⟨y, b, some e.val, .none⟩ : Pending) ∈ c.b.queue) ∧
    (k.output = true → ∃ b : BitRange, InRng b q ∧ b.left ≤ b.right ∧
      (Direct E.opts E.D k → ∀ q' : Nat, InRng b q' → ∃ j', j' < E.D.width p.sym ∧ Ties E.opts E.D k p.sym j' y q') ∧ 0 ≤ b.left ∧
      (Unsupplied es y q → ∃ l1 r l2, c.hist = l1 ++ r :: l2 ∧ Covers r y q ∧ HasN r.2.drivers (some e.val) ∧
        ∀ r' ∈ l2, Covers r' y q → r'.2.merge = true) ∧
      ∀ pp, Before es pp k → E.D.port y = some pp.sym → (∃ e' ∈ c.b.vars pp.sym, e'.lo ≤ b.left ∧ b.right ≤ e'.hi) →
        ∃ e' ∈ c.b.vars pp.sym, e'.lo ≤ b.left ∧ b.right ≤ e'.hi ∧ Joined c.b.net e.val e'.val) := by
  obtain ⟨pre, post, rfl, hlast⟩ := last_split (a := Event.connect k) (l := es) (by
    obtain ⟨l1, l2, l3, rfl⟩ := hb; simp)
  obtain ⟨c0, c1, a1, a2, a3, a4, a5, a6⟩ := steps_at (fine_start E.D) h.ok h.run
  obtain ⟨c1', R, W, b1, b2, b3⟩ := connect_ok a2.fine (h.ok (.connect k) (by simp))
  have b1' : Col.step E c0 (.connect k) = .ok c1' := b1
  rw [a3] at b1'; cases b1'
  have hv : ∀ pp : PortDecl, Before (pre ++ .connect k :: post) pp k → c.b.vars pp.sym = c0.b.vars pp.sym := by
    intro pp hpp
    obtain ⟨l1, l2, l3, h3⟩ := hpp
    have hmem := before_last h3.symm hlast
    obtain ⟨m1, m2, rfl⟩ := List.append_of_mem hmem
    have hon := h.once
    rw [List.append_assoc, List.cons_append] at hon
    obtain ⟨_, o2⟩ := once_split (y := pp.sym) hon (by simp [declares])
    rw [a6.fixed fun e he => o2 e (by simp [he]), b2.grew.fixed _ id]
  have he0 : e ∈ c0.b.vars p.sym := by rw [← hv p hb]; exact he
  refine ⟨fun ho hk => ?_, fun ho => ?_⟩
  · obtain ⟨b, g1, g2⟩ := b3.reads hs ho p.sym j y q ht e he0 h1 h2
    refine ⟨b, g2, ?_⟩
    obtain ⟨qq, hq⟩ := a6.grew.queue
    rw [hq]
    exact List.mem_append_left _ ((b2.queue _).2 (.inr ⟨y, b, e.val, g1, hk, rfl⟩))
  · obtain ⟨b, g1, g2⟩ := b3.writes hs ho p.sym j y q ht e he0 h1 h2
    obtain ⟨g3, g4, _⟩ := b3.only y b e.val (.inr g1)
    refine ⟨b, g2, g3, ?_, g4, ?_, ?_⟩
    · intro hd q' hq'
      obtain ⟨sym, e', he', _, j', _, hj', ht'⟩ := b3.exact hs hd y b e.val (.inr g1) q' hq'
      have hw := (a2.fine.rng sym e' he').2.2
      have hsy : sym = p.sym := by
        obtain ⟨⟨i', hi'⟩, _⟩ := ht'
        rw [hf] at hi'
        injection hi' with h3 _
        exact h3.symm
      subst hsy
      exact ⟨j', by omega, ht'⟩
    · intro hu
      obtain ⟨l, f1, f2, f3⟩ := b2.hist
      obtain ⟨g, k1, k2⟩ := a6.hist
      obtain ⟨r, hr, e1, e2, lsp, e3⟩ := f3 y b e.val g1
      obtain ⟨m1, m2, rfl⟩ := List.append_of_mem hr
      refine ⟨c0.hist ++ m1, r, m2 ++ g, by rw [k1, f1]; simp, ⟨e1, by rw [e2]; exact g2⟩, ?_, ?_⟩
      · rw [e3]; exact ⟨_, List.mem_singleton.2 rfl, rfl⟩
      · intro r' hr' hc'
        rcases List.mem_append.1 hr' with hr' | hr'
        · exact (f2 r' (by simp [hr'])).1
        · cases hm : r'.2.merge with
          | true => rfl
          | false =>
            obtain ⟨q', q1, q2⟩ := k2 r' hr' hm y q hc'
            exact absurd q2 (hu q' (by simp [q1]))
    · rintro pp hpp hport ⟨e', he', q1, q2⟩
      rw [hv pp hpp] at he' ⊢
      have hex := port_node_exact a2.fine.ok pp.sym b
      obtain ⟨b1, b2'⟩ := bounds_lower g3
      cases hn : portNodeFor c0.b pp.sym b with
      | none =>
        rw [hn] at hex
        refine absurd ?_ (hex e' he')
        intro i hi
        rw [inRng_iff, b1, b2'] at hi
        omega
      | some pn =>
        rw [hn] at hex
        obtain ⟨e2, he2, rfl, hcov⟩ := hex
        have w1 := hcov b.left (by rw [inRng_iff, b1, b2']; omega)
        have w2 := hcov b.right (by rw [inRng_iff, b1, b2']; omega)
        exact ⟨e2, he2, w1.1, w2.2, a6.grew.net.join _ _ (b2.hook y b e.val g1 pp.sym _ hport hn)⟩

/-- A range that a connection reads as a whole is pending as a whole. -/
theorem connect_whole {E : TravEnv} {es : List Event} {c : Col} (h : Walked E es c) {p : PortDecl} {k : Conn}
    (hb : Before es p k) (ho : k.output = false) {i : Option Nat} (hf : k.formal = .port p.sym i) {x : Nat}
    (hx : p.inner = some x) {j y : Nat} {bd : BitRange} (ht : TakesAll E c.cuts p k j y bd) (hk : E.D.kind y ≠ .modportPort)
    {e : Ivl Nat} (he : e ∈ c.b.vars p.sym) (h1 : e.lo ≤ j) (h2 : (j : Int) ≤ e.hi) :
    (⟨y, bd, some e.val, .none⟩ : Pending) ∈ c.b.queue := by
  have hpm : .port p ∈ es := by obtain ⟨l1, l2, l3, rfl⟩ := hb; simp
  have hends := fun e he => port_ends h hpm hx (e := e) he
  obtain ⟨pre, post, rfl, hlast⟩ := last_split (a := Event.connect k) (l := es) (by
    obtain ⟨l1, l2, l3, rfl⟩ := hb; simp)
  obtain ⟨c0, c1, a1, a2, a3, a4, a5, a6⟩ := steps_at (fine_start E.D) h.ok h.run
  obtain ⟨c1', R, W, b1, b2, b3⟩ := connect_ok a2.fine (h.ok (.connect k) (by simp))
  have b1' : Col.step E c0 (.connect k) = .ok c1' := b1
  rw [a3] at b1'; cases b1'
  have hv : c.b.vars p.sym = c0.b.vars p.sym := by
    obtain ⟨l1, l2, l3, h3⟩ := hb
    have hmem := before_last h3.symm hlast
    obtain ⟨m1, m2, rfl⟩ := List.append_of_mem hmem
    have hon := h.once
    rw [List.append_assoc, List.cons_append] at hon
    obtain ⟨_, o2⟩ := once_split (y := p.sym) hon (by simp [declares])
    rw [a6.fixed fun e he => o2 e (by simp [he]), b2.grew.fixed _ id]
  rw [hv] at hends he
  have hR : R y bd e.val := by
    obtain ⟨a, ha, ht⟩ := ht
    obtain ⟨w1, w2⟩ := b3.whole ho p.sym i hf a ha
    rcases ht with ⟨hn, l, hl, hr, rfl⟩ | ⟨hbw, off, l, hop, hr, rfl, j1, j2, hd, hc⟩
    · exact w1 hn l hl y hr e he
    · have key : ∀ e ∈ c0.b.vars p.sym, ¬ ((off : Int) < e.lo ∧ e.lo ≤ off + l.extra) ∧
          ¬ ((off : Int) ≤ e.hi ∧ e.hi < off + l.extra) := by
        intro e he
        obtain ⟨d, q1, q2, q3, q4, q5⟩ := hends e he
        have hre := (a2.fine.rng p.sym e he).2.1
        have hdd := hd d q1
        constructor
        · rintro ⟨g1, g2⟩
          rcases q4 with q4 | ⟨q4, l', q6, m, q7, q8⟩
          · omega
          · exact hc q4 x l' hx q6 m q7 ⟨by omega, by omega⟩
        · rintro ⟨g1, g2⟩
          rcases q5 with q5 | ⟨q5, l', q6, m, q7, q8⟩
          · omega
          · exact hc q5 x l' hx q6 m q7 ⟨by omega, by omega⟩
      have := key e he
      refine w2 hbw off l y hop hr key e he ?_ ?_ <;> omega
  obtain ⟨qq, hq⟩ := a6.grew.queue
  rw [hq]
  exact List.mem_append_left _ ((b2.queue _).2 (.inr ⟨y, bd, e.val, hR, hk, rfl⟩))

end Verif.Proofs

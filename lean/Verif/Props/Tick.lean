import Verif.Proofs.Tick
import Verif.Props.Clock

/-! C90: without a path, there is no influence over time, on the times at which blocks fire included. -/
namespace Verif.Props
open Verif.Model Verif.Spec Verif.Proofs

/-! ### Dependences through clocks are paths of the netlist -/

/-- What the paths of registers depend on: the signals that edge-triggered blocks write are as in `Timed` unless they
are on an interface. -/
structure Keeping (E : TravEnv) (es : List Event) (cuts : CutReg) : Prop where
  sync : ∀ b ∈ blocksOf es, Clocked b → Sync (allWrites b.stmt) b.stmt
  kept : ∀ b ∈ blocksOf es, Clocked b → ∀ w ∈ allWrites b.stmt, ¬ OnIface E es w.sym → WellKept E es cuts b w
  free : ∀ b ∈ blocksOf es, ∀ x j, Kept b x j → ¬ OnIface E es x → ∀ b' ∈ blocksOf es, ∀ who r Q,
    Use Start b'.stmt who r Q → ∀ p, InRng r.bounds p → ∀ tr, Q tr → ∀ w ∈ tr, ¬ Hits true x p w
  inlets : ∀ y q x j, Inlet E es y q x j → Bare es x ∧ E.D.kind x ≠ .modportPort

theorem timed_off {E : TravEnv} {es : List Event} {cuts : CutReg} (ht : Timed E es cuts) {b : Deferred}
    (hb : b ∈ blocksOf es) (hc : Clocked b) {w : Wr} (hw : w ∈ allWrites b.stmt) : ¬ OnIface E es w.sym := by
  obtain ⟨k1, k2, _⟩ := ht.alone b hb hc w hw
  rintro (h | ⟨ds, h⟩)
  · exact k1 h
  · exact k2 _ h (by simp [declares])

theorem timed_keeping {E : TravEnv} {es : List Event} {cuts : CutReg} (hr : Regular E es cuts)
    (ht : Timed E es cuts) : Keeping E es cuts where
  sync := ht.sync
  kept := fun _ hb hc _ hw _ => ⟨ht.range _ hb hc _ hw, ht.alone _ hb hc _ hw⟩
  free := fun _ hb _ _ hk _ _ hb' _ _ _ hu _ hp => kept_unwritten hr ht hb hk hb' hu hp
  inlets := hr.inlets

/-- Some assignment can leave a register its value. -/
theorem keeping_leaves {E : TravEnv} {es : List Event} {cuts : CutReg} (ht : Keeping E es cuts) {b : Deferred}
    (hb : b ∈ blocksOf es) {x j : Nat} (hk : Kept b x j) : ∃ loc, Leaves b.stmt x j loc := by
  obtain ⟨hc, w, w1, w2⟩ := hk
  obtain ⟨loc, hl⟩ := lastAt_of_hit ⟨w, w1, w2⟩
  rw [← sync_nba (ht.sync b hb hc)] at hl
  exact ⟨loc, .inl hl⟩

/-- The whole build, and the one node of every signal off the interfaces that edge-triggered blocks write. -/
structure Tabled (E : TravEnv) (es : List Event) (c : Col) (s' : Bld) (net : NetGraph) : Prop where
  whole : Whole E es c s' net
  table : ∀ b ∈ blocksOf es, Clocked b → ∀ w ∈ allWrites b.stmt, ¬ OnIface E es w.sym →
    ∃ st, s'.vars.lookup w.sym w.bounds = some st ∧
    ∀ v, ⟨w.bounds.left, w.bounds.right, v⟩ ∈ s'.vars w.sym ↔ v = st
  one : ∀ m ∈ net.g.nodes, ∀ n ∈ net.g.nodes, net.data m = net.data n →
    (net.data n).kind = .assignment ∨ (net.data n).kind = .conditional ∨ (net.data n).kind = .case → m = n

theorem tabled {E : TravEnv} {boxed : Str → Str → Bool} {ord : Tracker → List (Nat × Nat)}
    {top : List Member} (h : Buildable E boxed ord top) {c : Col} {net : NetGraph} (hc1 : phase1 E top = .ok c)
    (hn : netlist E ord top = .ok net) (hd : Distinct (eventsAll boxed E.opts.propCuts top))
    (ht : Keeping E (eventsAll boxed E.opts.propCuts top) c.cuts) :
    ∃ s', Tabled E (eventsAll boxed E.opts.propCuts top) c s' net := by
  obtain ⟨c', s, s', net', a1, a2, a3, a4, a5, a6, a7, a8⟩ := built h
  rw [hc1] at a1
  cases a1
  have hn' := hn
  rw [hn] at a7
  cases a7
  refine ⟨s', a8, fun b hb hc w hw ho => ?_, fun m hm n hn e hk => text_unique h hn' hd hm hn e hk⟩
  obtain ⟨⟨r1, r2, r3⟩, k1, k2, ⟨pre, post, k3, k4⟩, _⟩ := ht.kept b hb hc w hw ho
  obtain ⟨s0, b1', _, _, b4, b5, _⟩ := start_at a8.walk.eff.fine
    (plain_sub (fun w hw => List.mem_append_left _ hw) (h.plain c hc1))
  rw [a2] at b1'
  cases b1'
  have hv : s.vars w.sym = [] := by rw [b4, a8.walk.eff.fixed k2]
  have hsy := ht.sync b hb hc
  obtain ⟨loc, hl⟩ := lastAt_of_hit (b := false) (y := w.sym) (p := w.bounds.left) ⟨w, hw, sync_writes hsy w hw, rfl, by
    rw [inRng_iff]; simp only [BitRange.lower, BitRange.upper]; omega⟩
  rw [← sync_nba hsy] at hl
  rw [a3, k3] at a4 a5
  exact register_entry E.D a4 r1 hv k4 hc r2 (.inl hl) a5

/-- Node `n` is the one of the place in the text, or of the register, in the tables of the builder. -/
def PtNode (es : List Event) (s' : Bld) (net : NetGraph) : Point → Nat → Prop
  | .text d, n => n ∈ net.g.nodes ∧ net.data n = d
  | .reg x, n => ∃ b ∈ blocksOf es, Clocked b ∧ ∃ w ∈ allWrites b.stmt, w.sym = x ∧
    ⟨w.bounds.left, w.bounds.right, n⟩ ∈ s'.vars x

section
variable {E : TravEnv} {es : List Event} {c : Col} {s' : Bld} {net : NetGraph}

/-- What is known of the node of a register. -/
theorem reg_node (hw : Tabled E es c s' net) (ht : Keeping E es c.cuts) {b : Deferred} (hb : b ∈ blocksOf es)
    {x j : Nat} (hk : Kept b x j) (ho : ¬ OnIface E es x) : ∃ st, PtNode es s' net (.reg x) st ∧ (∀ m, PtNode es s' net (.reg x) m → m = st) ∧
      st ∈ net.g.nodes ∧
      (∃ bd, InRng bd j ∧ net.data st = .state (E.D.ref x).name (E.D.ref x).path (E.D.ref x).loc bd) ∧
      (∀ p loc, Leaves b.stmt x p loc → FedBy net loc st) ∧
      (∀ z i, Waits E.D b z i → ∃ g, (⟨z, ⟨0, (E.D.width z : Int) - 1⟩, some st, g⟩ : Pending) ∈ s'.queue) ∧
      ∀ w ∈ allWrites b.stmt, w.sym = x → s'.vars.lookup x w.bounds = some st := by
  have hk' := hk
  obtain ⟨hc, w, w1, _, rfl, w3⟩ := hk'
  obtain ⟨⟨r1, r2, _⟩, _, _, ⟨pre, post, e1, e2⟩, _⟩ := ht.kept b hb hc w w1 ho
  obtain ⟨st, t1, t2⟩ := hw.table b hb hc w w1 ho
  obtain ⟨s, W, hv, hd⟩ := hw.whole.done
  have hst : ∀ p loc, Leaves b.stmt w.sym p loc → FedBy net loc st ∧ st ∈ net.g.nodes ∧
      net.data st = .state (E.D.ref w.sym).name (E.D.ref w.sym).path (E.D.ref w.sym).loc w.bounds ∧
      ∀ z i, Waits E.D b z i → ∃ g, (⟨z, ⟨0, (E.D.width z : Int) - 1⟩, some st, g⟩ : Pending) ∈ s'.queue := by
    intro p loc hl
    obtain ⟨st', bd, k, g1, g2, _, g4, g5, g6, g7, g8, g9, g10⟩ := hd.regs b hb hc w.sym p loc hl
    obtain rfl := whole_range r2 r1 g8 g9
    obtain rfl := (t2 st').1 g7
    refine ⟨fedBy_mono hw.whole.late ⟨k, g4, g5, g6⟩, hw.whole.late.nodes _ g1, by rw [hw.whole.late.data _ g1, g2], ?_⟩
    rintro z i ⟨v, v1, v2, v3⟩
    exact ⟨v.edge, g10 v v1 z v2 (by omega)⟩
  obtain ⟨loc, hl⟩ := keeping_leaves ht hb hk
  obtain ⟨_, f2, f3, f4⟩ := hst _ loc hl
  refine ⟨st, ⟨b, hb, hc, w, w1, rfl, (t2 st).2 rfl⟩, ?_, f2, ⟨w.bounds, w3, f3⟩, fun p loc hl => (hst p loc hl).1, f4,
    fun v hv' hs => by rw [r2 v hv' hs]; exact t1⟩
  rintro m ⟨b', hb', hc', v, v1, v2, v3⟩
  rw [e1] at hb'
  have hbb : b' = b := by
    rcases List.mem_append.1 hb' with h | h
    · exact absurd v2 (e2 b' (List.mem_append_left _ h) hc' v v1)
    · rcases List.mem_cons.1 h with h | h
      · exact h
      · exact absurd v2 (e2 b' (List.mem_append_right _ h) hc' v v1)
  subst hbb
  rw [r2 v v1 v2] at v3
  exact (t2 m).1 v3

/-- A driver of a bit enters the node of what heeds it. -/
theorem heeds_joined (hw : Tabled E es c s' net) (ht : Keeping E es c.cuts) {z i : Nat} {v : Point}
    (h : Heeds E.D es z i v) (hov : Off E es v) (hz : Bare es z) (hk : E.D.kind z ≠ .modportPort) {a : Nat}
    (ha : DAt s'.trk s'.drv z i (some a)) {m : Nat} (hm : PtNode es s' net v m) : Joined net a m := by
  cases h with
  | @read who h =>
    obtain ⟨b, k1, r, Q, k3, k4, rfl, k6, k7, k8⟩ := h
    obtain ⟨s, W, hv, hd⟩ := hw.whole.done
    obtain ⟨n, n1, _, n3, n4⟩ := hd.uses b k1 _ r Q k3 k4 k7
    obtain ⟨⟨ps, pb, pn, pg⟩, hp, f1, f2, _, f4⟩ := n4.queued hk i k6 k8
    simp only at f1 f2 f4
    subst f1 f2
    have hn' := hw.whole.late.nodes n n1
    have hdat : net.data n = who := by rw [hw.whole.late.data n n1, n3]
    obtain rfl := hw.one n hn' m hm.1 (hdat.trans hm.2.symm) (by rw [hm.2]; exact use_kind k3)
    exact hw.whole.read _ hz pb n pg i hp f4 _ ha
  | edge e1 e2 e3 =>
    obtain ⟨st, _, g2, _, _, _, g6, _⟩ := reg_node hw ht e1 e2 hov
    obtain rfl := g2 m hm
    obtain ⟨g, hg⟩ := g6 z i e3
    obtain ⟨_, _, _, e4⟩ := e3
    exact hw.whole.read z hz _ m g i hg (by rw [inRng_iff]; simp only [BitRange.lower, BitRange.upper]; omega) _ ha

/-- One step backwards. -/
theorem moves_back (hw : Tabled E es c s' net) (ht : Keeping E es c.cuts)
    (hg : WholeClocks E.D es) {u v : Point} (h : Moves E es c.cuts u v) (hou : Off E es u) (hov : Off E es v) {m : Nat} (hm : PtNode es s' net v m) :
    ∃ k, PtNode es s' net u k ∧ Reach (Joined net) k m := by
  cases h with
  | pass h =>
    obtain ⟨a, a1, x, k, k1, k2, k3, k4, k5⟩ := passes_hops hw.whole h
    obtain rfl := hw.one k k1 m hm.1 (k3.trans hm.2.symm) (by rw [hm.2]; exact passes_kind h)
    exact ⟨a, ⟨a1, k2⟩, (hops_joined k4).tail k5.1⟩
  | load h1 h2 h3 =>
    obtain ⟨st, _, g2, _, _, g5, _⟩ := reg_node hw ht h1 h2 hov
    obtain rfl := g2 m hm
    obtain ⟨k, k1, k2, k3⟩ := g5 _ _ h3
    exact ⟨k, ⟨k1, k2⟩, Reach.refl.tail k3⟩
  | clock h1 h2 h3 h4 h5 h6 h7 h8 =>
    obtain ⟨k, k1, k2, _, a, a1, a2⟩ := carried_comb hw.whole h1 h3 h4
    obtain ⟨a', b1, b2⟩ := down hw.whole h5 a1
    exact ⟨k, ⟨k1, k2 h2⟩, (reach_trans (hops_joined a2) (hops_joined b2)).tail (heeds_joined hw ht h6 hov h8 h7 b1 hm)⟩
  | @keep b x j v h1 h2 h3 =>
    obtain ⟨st, g1, _, _, _, _, _, g7⟩ := reg_node hw ht h1 h2 hou
    have h2' := h2
    obtain ⟨hc, w, w1, _, rfl, _⟩ := h2'
    obtain ⟨⟨r1, _, r3⟩, q1, _⟩ := ht.kept b h1 hc w w1 hou
    have hlook := g7 w w1 rfl
    refine ⟨st, g1, Reach.refl.tail ?_⟩
    cases h3 with
    | read h =>
      obtain ⟨b', k1, r, Q, k3, k4, k5, k6, k7, k8⟩ := h
      obtain ⟨s, W, hv, hd⟩ := hw.whole.done
      obtain ⟨n, n1, _, n3, n4⟩ := hd.uses b' k1 _ r Q k3 k4 (by rw [k5]; exact k7)
      have hrb := r3 b' k1 _ r Q k3 k5
      have hp := n4.whole (by rw [k5]; exact q1) (by rw [hrb]; exact r1)
        (fun p hp => by rw [k5]; exact ht.free b h1 _ _ h2 hou _ k1 _ _ _ k3 _ hp)
      rw [k5, hrb] at hp
      have hn' := hw.whole.late.nodes n n1
      have hdat := hw.whole.late.data n n1
      obtain rfl := hw.one n hn' m hm.1 ((hdat.trans n3).trans hm.2.symm) (by rw [hm.2]; exact use_kind k3)
      exact hw.whole.look _ _ _ _ _ hp hlook
    | edge e1 e2 e3 =>
      obtain ⟨st', _, g2, _, _, _, g6, _⟩ := reg_node hw ht e1 e2 hov
      obtain rfl := g2 m hm
      obtain ⟨g, hq⟩ := g6 _ _ e3
      obtain ⟨ev, v1, v2, _⟩ := e3
      rw [hg _ e1 ev v1 _ v2 b h1 hc w w1 rfl] at hlook
      exact hw.whole.look _ _ _ _ _ hq hlook
  | @enter b x j y q z i v h1 h2 h3 h4 h5 h6 h7 =>
    obtain ⟨st, g1, _, _, _, _, _, g7⟩ := reg_node hw ht h1 h2 hou
    have h2' := h2
    obtain ⟨hc, w, w1, _, rfl, w3⟩ := h2'
    obtain ⟨_, q1, _, _, q2⟩ := ht.kept b h1 hc w w1 hou
    obtain ⟨p, kn, c1, ⟨c2, c3, c4⟩, c5⟩ := h3
    have hta := q2 p kn j y q c1 ⟨c2, c3, c4⟩ c5 w3
    obtain ⟨_, _, _, p4⟩ := port_at hw.whole.walk (last_mem c5)
    obtain ⟨e, p5, p6, p7, p8⟩ := p4 y q c5
    obtain ⟨⟨i0, hf⟩, _⟩ := c4
    have hpend := connect_whole hw.whole.walk c2 c1 hf (last_inner c5) hta q1 p5 p6 p7
    obtain ⟨a', d1, d2⟩ := down hw.whole h4 (hw.whole.keep _ _ _ p8)
    exact ⟨st, g1, (reach_trans (Reach.refl.tail (hw.whole.look _ _ _ _ _ (hw.whole.queue _ hpend) (g7 w w1 rfl)))
      (hops_joined d2)).tail (heeds_joined hw ht h5 hov h7 h6 d1 hm)⟩
  | @out b x j y q z i v h1 h2 h3 h4 h5 h6 h7 =>
    obtain ⟨loc, hl⟩ := keeping_leaves ht h1 h2
    have h2' := h2
    obtain ⟨hc, w, w1, _, rfl, w3⟩ := h2'
    obtain ⟨⟨r1, r2, _⟩, _⟩ := ht.kept b h1 hc w w1 hou
    rcases h3 with ⟨hn, _⟩ | ⟨lo, hi, hin, hu⟩
    · exact absurd hc hn
    · obtain ⟨a, ha, a', a1, a2⟩ := up (A := PtNode es s' net (.reg w.sym)) hw.whole hu (by
        intro p hp hport hh _
        obtain ⟨e, he, l1, l2, k, k1, k2, _, k4⟩ := leave_port hw.whole h1 hl hin hp hport hh
        obtain ⟨⟨bd, _, _, f3, f4, f5⟩, _⟩ := k4 hc
        obtain rfl := whole_range r2 r1 f3 f4
        exact ⟨k, ⟨b, h1, hc, w, w1, rfl, f5⟩, e, he, l1, l2, Reach.refl.tail ⟨k2, port_kind hw.whole hp hh.1 he⟩⟩)
      obtain ⟨a'', b1, b2⟩ := down hw.whole h4 a1
      exact ⟨a, ha, (reach_trans (hops_joined a2) (hops_joined b2)).tail (heeds_joined hw ht h5 hov h7 h6 b1 hm)⟩

/-- Without interfaces there are no registers on them. -/
theorem heeds_off (ht : Timed E es c.cuts) {z i : Nat} {v : Point} (h : Heeds E.D es z i v) : Off E es v := by
  cases h with
  | read _ => trivial
  | edge h1 h2 _ => obtain ⟨hc, w, w1, _, rfl, _⟩ := h2; exact timed_off ht h1 hc w1

theorem moves_off (ht : Timed E es c.cuts) {u v : Point} (h : Moves E es c.cuts u v) : Off E es u ∧ Off E es v := by
  cases h with
  | pass _ => exact ⟨trivial, trivial⟩
  | load h1 h2 _ => obtain ⟨hc, w, w1, _, rfl, _⟩ := h2; exact ⟨trivial, timed_off ht h1 hc w1⟩
  | clock _ _ _ _ _ h _ _ => exact ⟨trivial, heeds_off ht h⟩
  | keep h1 h2 h => obtain ⟨hc, w, w1, _, rfl, _⟩ := h2; exact ⟨timed_off ht h1 hc w1, heeds_off ht h⟩
  | enter h1 h2 _ _ h => obtain ⟨hc, w, w1, _, rfl, _⟩ := h2; exact ⟨timed_off ht h1 hc w1, heeds_off ht h⟩
  | out h1 h2 _ _ h => obtain ⟨hc, w, w1, _, rfl, _⟩ := h2; exact ⟨timed_off ht h1 hc w1, heeds_off ht h⟩

/-- A chain of dependences, in registers and clocks as well, is a path of the netlist. -/
theorem moves_reach (hw : Tabled E es c s' net) (hr : Regular E es c.cuts) (ht : Timed E es c.cuts)
    (hg : WholeClocks E.D es) {u v : Point} (h : Reach (Moves E es c.cuts) u v) : ∀ {m : Nat},
    PtNode es s' net v m → ∃ k, PtNode es s' net u k ∧ Reach (Joined net) k m := by
  induction h with
  | refl => intro m hm; exact ⟨m, hm, .refl⟩
  | tail _ h2 ih =>
    intro m hm
    obtain ⟨k, k1, k2⟩ := moves_back hw (timed_keeping hr ht) hg h2 (moves_off ht h2).1 (moves_off ht h2).2 hm
    obtain ⟨k', k3, k4⟩ := ih k1
    exact ⟨k', k3, reach_trans k4 k2⟩

/-- Points that heed something have a node, in the sense of the specification too. -/
theorem heeds_is (hw : Tabled E es c s' net) (ht : Keeping E es c.cuts) {z i : Nat} {v : Point}
    (h : Heeds E.D es z i v) (hov : Off E es v) {m : Nat} (hm : PtNode es s' net v m) : IsAt E.D net v m := by
  cases h with
  | read _ => exact hm
  | edge e1 e2 _ =>
    obtain ⟨st, _, g2, g3, ⟨bd, _, g4⟩, _⟩ := reg_node hw ht e1 e2 hov
    obtain rfl := g2 m hm
    exact ⟨g3, bd, g4⟩

/-- A node of an input port reaches the node of what heeds a bit it brings. -/
theorem port_heeded (hw : Tabled E es c s' net) (ht : Keeping E es c.cuts) {p : PortDecl}
    {s q z i : Nat} (hp : LastSupply es s q p) (hs : Bare es s) (hk : E.D.kind s ≠ .modportPort)
    (hbr : Brings E es s q z i) {v : Point} (hf : Heeds E.D es z i v) (hov : Off E es v) {m : Nat} (hm : PtNode es s' net v m) :
    ∃ n, PortNode E.D net p q n ∧ Reach (Joined net) n m := by
  obtain ⟨h1, h2, h3⟩ := inlets_down ht.inlets hbr hs hk
  obtain ⟨_, g2, _, g4⟩ := port_at hw.whole.walk (last_mem hp)
  obtain ⟨e, e1, e2, e3, e4⟩ := g4 s q hp
  obtain ⟨a, a1, a2⟩ := down hw.whole h1 (hw.whole.keep _ _ _ e4)
  have hin := last_inner hp
  have hen := (hw.whole.walk.eff.fine.ok.vars p.sym e e1).1
  refine ⟨e.val, ⟨hw.whole.early.nodes _ hen, s, ⟨e.lo, e.hi⟩, hin, (inRng_iff _ _).2 ?_, ?_⟩,
    (hops_joined a2).tail (heeds_joined hw ht hf hov h2 h3 a1 hm)⟩
  · simp only [BitRange.lower, BitRange.upper]; omega
  · rw [hw.whole.early.data _ hen, g2 s hin e e1]; rfl

end

/-- Node `n` of the netlist is the one from which bit `j` of `x` gets its value in block `b`: the node of the
register, or of an assignment that can leave the bit its value. -/
def GivenAt (D : Design) (net : NetGraph) (b : Deferred) (x j n : Nat) : Prop :=
  n ∈ net.g.nodes ∧
  (Clocked b → ∃ bd, InRng bd j ∧ net.data n = .state (D.ref x).name (D.ref x).path (D.ref x).loc bd) ∧
  (¬ Clocked b → ∃ loc, Leaves b.stmt x j loc ∧ net.data n = .assignment loc)

/-- What `influence_through_clocks_partial` and `no_path_same_clocked_partial` share. -/
theorem influence_clocks {V : Type} {M : Meaning V} {E : TravEnv} {boxed : Str → Str → Bool}
    {ord : Tracker → List (Nat × Nat)} {top marked : List Member} {f : TextLoc → TextLoc}
    (h : Buildable E boxed ord top) {c : Col} {net : NetGraph} (hc : phase1 E top = .ok c)
    (hn : netlist E ord top = .ok net) (hm : Marked boxed E.opts.propCuts f marked top) (hl : combLoops net = [])
    (hr : Regular E (eventsAll boxed E.opts.propCuts marked) c.cuts)
    (ht : Timed E (eventsAll boxed E.opts.propCuts marked) c.cuts)
    (hg : WholeClocks E.D (eventsAll boxed E.opts.propCuts marked))
    (hf : Faithful M E (eventsAll boxed E.opts.propCuts marked))
    (hf' : ∀ b ∈ blocksOf (eventsAll boxed E.opts.propCuts marked), Clocked b → Reflects M b.stmt)
    {T : (Nat → Vals V) → Nat → Deferred → Bool} (hT : Triggers E.D (eventsAll boxed E.opts.propCuts marked) T)
    {σ σ' : Nat → Vals V} (hs : Unrolls M E (eventsAll boxed E.opts.propCuts marked) (T σ) σ)
    (hs' : Unrolls M E (eventsAll boxed E.opts.propCuts marked) (T σ') σ')
    (hi : ∀ b ∈ blocksOf (eventsAll boxed E.opts.propCuts marked), ∀ x j, Kept b x j → σ 0 x j = σ' 0 x j)
    {b : Deferred} (hb : b ∈ blocksOf (eventsAll boxed E.opts.propCuts marked)) {x j t : Nat} (hv : ValueFrom b x j)
    (hne : σ t x j ≠ σ' t x j) :
    ∃ net' c' s'', netlist E ord marked = .ok net' ∧ net = moveNet f net' ∧ c'.cuts = c.cuts ∧
      Tabled E (eventsAll boxed E.opts.propCuts marked) c' s'' net' ∧
      ∃ t' ≤ t, ∃ s q z i u, Source E (eventsAll boxed E.opts.propCuts marked) c.cuts s q ∧
      ¬ Held E (eventsAll boxed E.opts.propCuts marked) c.cuts s q ∧ σ t' s q ≠ σ' t' s q ∧
      Brings E (eventsAll boxed E.opts.propCuts marked) s q z i ∧
      Heeds E.D (eventsAll boxed E.opts.propCuts marked) z i u ∧
      ∃ m n, PtNode (eventsAll boxed E.opts.propCuts marked) s'' net' u m ∧ GivenAt E.D net' b x j n ∧
        (Clocked b → PtNode (eventsAll boxed E.opts.propCuts marked) s'' net' (.reg x) n) ∧
        Reach (Joined net') m n := by
  obtain ⟨c', net', g1, g2, g3, g4, rfl, g6⟩ := marked_built h hc hn hm hl
  rw [g3.symm] at g6 hr ht
  obtain ⟨s'', hw⟩ := tabled g1 g2 g4 hm.distinct (timed_keeping hr ht)
  have hL : ∀ u v, Passes E (eventsAll boxed E.opts.propCuts marked) c'.cuts u v → u ∈ datas net' := by
    intro u v hp
    obtain ⟨a, a1, _, _, _, a2, _⟩ := passes_hops hw.whole hp
    exact List.mem_map.2 ⟨a, a1, a2⟩
  refine ⟨net', c', s'', g4, rfl, g3, hw, ?_⟩
  rw [← g3]
  have key : ∃ v n, TouchedBy E (eventsAll boxed E.opts.propCuts marked) c'.cuts σ σ' t v ∧
      PtNode (eventsAll boxed E.opts.propCuts marked) s'' net' v n ∧ GivenAt E.D net' b x j n ∧
      (Clocked b → PtNode (eventsAll boxed E.opts.propCuts marked) s'' net' (.reg x) n) := by
    rcases hv with hv | ⟨hv, hwr⟩
    · have hov : ¬ OnIface E (eventsAll boxed E.opts.propCuts marked) x := by
        obtain ⟨hc', w, w1, _, rfl, _⟩ := hv
        exact timed_off ht hb hc' w1
      obtain ⟨st, k1, _, k3, k4, _⟩ := reg_node hw (timed_keeping hr ht) hb hv hov
      exact ⟨.reg x, st, register_touched hr ht hf hf' hT hs hs' hi _ hL g6 t b hb x j hv hne, k1,
        ⟨k3, fun _ => k4, fun h => absurd hv.1 h⟩, fun _ => k1⟩
    · obtain ⟨loc, l1, l2⟩ := assigned_touched hr ht hf hf' hT hs hs' hi _ hL g6 hb hv hwr hne
      obtain ⟨s, W, hv', hd⟩ := hw.whole.done
      obtain ⟨d, h1, n, n1, rfl, n2⟩ := (hd.defs x j loc).2 (.inr ⟨b, hb, hv, l1⟩)
      have n3 := hw.whole.late.nodes n n1
      have n4 : net'.data n = .assignment loc := by rw [hw.whole.late.data n n1, n2]
      exact ⟨_, n, l2, ⟨n3, n4⟩, ⟨n3, fun h => absurd h hv, fun _ => ⟨loc, l1, n4⟩⟩, fun h => absurd h hv⟩
  obtain ⟨v, n, ⟨t', l2, s, q, z, i, u, l3, l4, l5, l6, l7, l8⟩, n1, n2, n3⟩ := key
  obtain ⟨m, m1, m2⟩ := moves_reach hw hr ht hg l8 n1
  exact ⟨t', l2, s, q, z, i, u, l3, l4, l5, l6, l7, m, n, m1, n2, n3, m2⟩

/-- C90. As C81, but the blocks may fire at different times in the two observations: whether a block fires
depends, in any way, on the values that the signals in its event list have had until then (`Triggers`). These
signals may themselves be computed by the design: inputs, assigned, registers, from inside an instance or
from outside. If a bit that a block gives its value ever differs, then at this time or before, a bit that comes
from outside has differed, and a path leads from a node that reads it, or a register that waits for it, to
the node of the register of the bit or of an assignment that can leave it its value.
Missing, as in C81: designs that are not regular or not timed. A register that is a clock is written as a whole. -/
theorem influence_through_clocks_partial {V : Type} {M : Meaning V} {E : TravEnv} {boxed : Str → Str → Bool}
    {ord : Tracker → List (Nat × Nat)} {top marked : List Member} {f : TextLoc → TextLoc}
    (h : Buildable E boxed ord top) {c : Col} {net : NetGraph} (hc : phase1 E top = .ok c)
    (hn : netlist E ord top = .ok net) (hm : Marked boxed E.opts.propCuts f marked top) (hl : combLoops net = [])
    (hr : Regular E (eventsAll boxed E.opts.propCuts marked) c.cuts)
    (ht : Timed E (eventsAll boxed E.opts.propCuts marked) c.cuts)
    (hg : WholeClocks E.D (eventsAll boxed E.opts.propCuts marked))
    (hf : Faithful M E (eventsAll boxed E.opts.propCuts marked))
    (hf' : ∀ b ∈ blocksOf (eventsAll boxed E.opts.propCuts marked), Clocked b → Reflects M b.stmt)
    {T : (Nat → Vals V) → Nat → Deferred → Bool} (hT : Triggers E.D (eventsAll boxed E.opts.propCuts marked) T)
    {σ σ' : Nat → Vals V} (hs : Unrolls M E (eventsAll boxed E.opts.propCuts marked) (T σ) σ)
    (hs' : Unrolls M E (eventsAll boxed E.opts.propCuts marked) (T σ') σ')
    (hi : ∀ b ∈ blocksOf (eventsAll boxed E.opts.propCuts marked), ∀ x j, Kept b x j → σ 0 x j = σ' 0 x j)
    {b : Deferred} (hb : b ∈ blocksOf (eventsAll boxed E.opts.propCuts marked)) {x j t : Nat} (hv : ValueFrom b x j)
    (hne : σ t x j ≠ σ' t x j) :
    ∃ net', netlist E ord marked = .ok net' ∧ net = moveNet f net' ∧
      ∃ t' ≤ t, ∃ s q z i u, Source E (eventsAll boxed E.opts.propCuts marked) c.cuts s q ∧
      ¬ Held E (eventsAll boxed E.opts.propCuts marked) c.cuts s q ∧ σ t' s q ≠ σ' t' s q ∧
      Brings E (eventsAll boxed E.opts.propCuts marked) s q z i ∧
      Heeds E.D (eventsAll boxed E.opts.propCuts marked) z i u ∧
      ∃ m n, IsAt E.D net' u m ∧ GivenAt E.D net' b x j n ∧ Reach (Joined net) m n := by
  obtain ⟨net', c', s'', g1, rfl, g3, hw, t', l1, s, q, z, i, u, l2, l3, l4, l5, l6, m, n, m1, n1, _, l7⟩ :=
    influence_clocks h hc hn hm hl hr ht hg hf hf' hT hs hs' hi hb hv hne
  exact ⟨net', g1, rfl, t', l1, s, q, z, i, u, l2, l3, l4, l5, l6, m, n,
    heeds_is hw (g3 ▸ timed_keeping hr ht) l6 (heeds_off ht l6) m1, n1, l7⟩

/-- C90, from input ports to an output port, in terms of the answers of the tool: if it reports no
combinational loop, and answers every query for a path from a node of an input port with a bit that ever
differs (also one that serves as a clock) to a node of output port `p` with bit `j` by the empty path, then bit
`j` of the output is always the same. -/
theorem no_path_same_clocked_partial {V : Type} {M : Meaning V} {E : TravEnv} {boxed : Str → Str → Bool}
    {ord : Tracker → List (Nat × Nat)} {top marked : List Member} {f : TextLoc → TextLoc}
    (h : Buildable E boxed ord top) {c : Col} {net : NetGraph} (hc : phase1 E top = .ok c)
    (hn : netlist E ord top = .ok net) (hm : Marked boxed E.opts.propCuts f marked top) (hl : combLoops net = [])
    (hr : Regular E (eventsAll boxed E.opts.propCuts marked) c.cuts)
    (ht : Timed E (eventsAll boxed E.opts.propCuts marked) c.cuts)
    (hg : WholeClocks E.D (eventsAll boxed E.opts.propCuts marked))
    (hf : Faithful M E (eventsAll boxed E.opts.propCuts marked))
    (hf' : ∀ b ∈ blocksOf (eventsAll boxed E.opts.propCuts marked), Clocked b → Reflects M b.stmt)
    {T : (Nat → Vals V) → Nat → Deferred → Bool} (hT : Triggers E.D (eventsAll boxed E.opts.propCuts marked) T)
    {σ σ' : Nat → Vals V} (hs : Unrolls M E (eventsAll boxed E.opts.propCuts marked) (T σ) σ)
    (hs' : Unrolls M E (eventsAll boxed E.opts.propCuts marked) (T σ') σ')
    (hz : ∀ b ∈ blocksOf (eventsAll boxed E.opts.propCuts marked), ∀ x j, Kept b x j → σ 0 x j = σ' 0 x j)
    (hp : ∀ t s q, Source E (eventsAll boxed E.opts.propCuts marked) c.cuts s q →
      ¬ Held E (eventsAll boxed E.opts.propCuts marked) c.cuts s q → σ t s q ≠ σ' t s q →
      Bare (eventsAll boxed E.opts.propCuts marked) s ∧ E.D.kind s ≠ .modportPort ∧
        ∃ p, LastSupply (eventsAll boxed E.opts.propCuts marked) s q p) {b : Deferred}
    (hb : b ∈ blocksOf (eventsAll boxed E.opts.propCuts marked)) {x j : Nat} (hv : ValueFrom b x j) {p : PortDecl}
    (hpo : .port p ∈ eventsAll boxed E.opts.propCuts marked) (hx : E.D.port x = some p.sym) {lo hi : Int}
    (hsp : Spans E c.cuts p x lo hi)
    (hin : ∀ w ∈ allWrites b.stmt, w.sym = x → InRng w.bounds j → lo ≤ w.bounds.lower ∧ w.bounds.upper ≤ hi)
    (hno : ∀ (t s q n m : Nat) p', LastSupply (eventsAll boxed E.opts.propCuts marked) s q p' → σ t s q ≠ σ' t s q →
      PortNode E.D net p' q n → PortNode E.D net p j m → p'.dir ≠ p.dir ∧ findPath net n m = some []) (t : Nat) :
    σ t x j = σ' t x j := by
  refine Classical.byContradiction fun hne => ?_
  obtain ⟨net', c', s'', g4, rfl, g3, hw, t', l1, s, q, z, i, u, l2, l3, l4, l5, l6, m, n, m1, n1, n2, hmn⟩ :=
    influence_clocks h hc hn hm hl hr ht hg hf hf' hT hs hs' hz hb hv hne
  rw [← g3] at hr ht hsp
  obtain ⟨p1, p2, p', p3⟩ := hp t' s q l2 l3 l4
  obtain ⟨a, ⟨a1, y, bd, a2, a3, a4⟩, a7⟩ := port_heeded hw (timed_keeping hr ht) p3 p1 p2 l5 l6 (heeds_off ht l6) m1
  have hto : ∃ e ∈ c'.b.vars p.sym, e.lo ≤ j ∧ (j : Int) ≤ e.hi ∧ Reach (Joined net') n e.val := by
    rcases hv with hk | ⟨hk, _⟩
    · obtain ⟨loc, l1'⟩ := kept_leaves ht hb hk
      obtain ⟨e, e1, e2, e3, k, e4, e5, _, e7⟩ := leave_port hw.whole hb l1' hin hpo hx hsp
      obtain ⟨⟨bd', _, _, f3, f4, f5⟩, _⟩ := e7 hk.1
      obtain ⟨st, _, q2, _⟩ := reg_node hw (timed_keeping hr ht) hb hk (by
        obtain ⟨hc', w, w1, _, rfl, _⟩ := hk
        exact timed_off ht hb hc' w1)
      obtain ⟨hc', w, w1, _, rfl, _⟩ := hk
      obtain ⟨r1, r2, _⟩ := ht.range b hb hc' w w1
      obtain rfl := whole_range r2 r1 f3 f4
      have : k = n := (q2 k ⟨b, hb, hc', w, w1, rfl, f5⟩).trans (q2 n (n2 hc')).symm
      subst this
      exact ⟨e, e1, e2, e3, Reach.refl.tail e5⟩
    · obtain ⟨n3, _, n4⟩ := n1
      obtain ⟨loc, l1', n5⟩ := n4 hk
      obtain ⟨e, e1, e2, e3, k, e4, e5, e6, _⟩ := leave_port hw.whole hb l1' hin hpo hx hsp
      obtain rfl := hw.one k e4 n n3 ((e6 hk).trans n5.symm) (by rw [n5]; exact .inl rfl)
      exact ⟨e, e1, e2, e3, Reach.refl.tail e5⟩
  obtain ⟨e, e1, e2, e3, hto⟩ := hto
  have hen := (hw.whole.walk.eff.fine.ok.vars p.sym e e1).1
  have hdat : net'.data e.val = .port (E.D.ref x).name (E.D.ref x).path (E.D.ref x).loc p.dir ⟨e.lo, e.hi⟩ := by
    rw [hw.whole.early.data _ hen, (port_at hw.whole.walk hpo).2.1 x hsp.1 e e1]; rfl
  have hpn : PortNode E.D (moveNet f net') p j e.val := by
    refine ⟨hw.whole.early.nodes _ hen, x, ⟨e.lo, e.hi⟩, hsp.1, (inRng_iff _ _).2 ?_, ?_⟩
    · simp only [BitRange.lower, BitRange.upper]; omega
    · show moveData f (net'.data e.val) = _
      rw [hdat]; rfl
  have hpa : PortNode E.D (moveNet f net') p' q a := by
    refine ⟨a1, y, bd, a2, a3, ?_⟩
    show moveData f (net'.data a) = _
    rw [a4]; rfl
  obtain ⟨hdir, hq⟩ := hno t' s q a e.val p' p3 l4 hpa hpn
  have hne : a ≠ e.val := by
    rintro rfl
    rw [a4] at hdat
    injection hdat with _ _ _ hd _
    exact hdir hd
  obtain ⟨path, f1, _, f3⟩ := path_answers h.design h.visits hn a1 hne
  rw [hq] at f1
  cases f1
  exact f3 rfl (show Reach (Joined net') _ _ from reach_trans (reach_trans a7 hmn) hto)

/-! ### A concrete case

```
module t(input [7:0] a, c, output [7:0] y, w);
  assign k = a;                      // line 1
  always_ff @(posedge k) q <= c;     // line 2
  assign y = q;                      // line 4
  assign w = c;                      // line 5
endmodule
```
The insides of the ports are the signals 0, 3, 1 and 4, `q` is signal 2, `k` is signal 10. -/

def tkAt (n : Nat) : TextLoc := ⟨0, n, 0⟩

def tkB0 : Deferred := .continuous (tkAt 1) (.aligned [⟨[dsRef 10], [.lsp (dsRef 0)], tkAt 1⟩])

def tkB1 : Deferred := .procedural .alwaysFF (.timed (.signalEvent ⟨.posEdge, some 10⟩))
  (.assign (tkAt 2) false (.aligned [⟨[dsRef 2], [.lsp (dsRef 3)], tkAt 2⟩]))

def tkB2 : Deferred := .continuous (tkAt 4) (.aligned [⟨[dsRef 1], [.lsp (dsRef 2)], tkAt 4⟩])
def tkB3 : Deferred := .continuous (tkAt 5) (.aligned [⟨[dsRef 4], [.lsp (dsRef 3)], tkAt 5⟩])

theorem tk_clear {b : Deferred} (hb : b ∈ [tkB2, tkB3]) : ¬ Clocked b := by
  rintro ⟨⟨v, hv, _⟩, _⟩
  simp at hb
  rcases hb with rfl | rfl <;> cases hv

def tkTop : List Member := [.inst false ['t'] ['t'] [.port (hdIn 20 0), .port (hdIn 22 3), .port (hdOut 21 1),
  .port (hdOut 23 4), .block tkB0, .block tkB1, .block tkB2, .block tkB3] []]

def tkEvents : List Event := [.port (hdIn 20 0), .port (hdIn 22 3), .port (hdOut 21 1), .port (hdOut 23 4),
  .block tkB0, .block tkB1, .block tkB2, .block tkB3]

def tkCol : Col := (phase1 hdE tkTop).toOption.getD {}
def tkNet : NetGraph := (netlist hdE Tracker.slots tkTop).toOption.getD {}

theorem tk_events : eventsAll hdBoxed hdE.opts.propCuts tkTop = tkEvents := by
  simp [tkTop, eventsAll, events, hdBoxed, tkEvents]

theorem tk_blocks : blocksOf tkEvents = [tkB0, tkB1, tkB2, tkB3] := rfl

theorem tk_elab : Elaborated hdE hdBoxed tkTop where
  boxes := by simp [DecidesBoxes, Boxed, hdBoxed, hdE]
  ok := by
    rw [tk_events]
    simp [tkEvents, EventOk, hdIn, hdOut, PortDriver.hi, hdE, hdD]
  once := by
    rw [tk_events]
    show [20, 22, 21, 23].Nodup
    decide

theorem tk_phase1 : phase1 hdE tkTop = .ok tkCol := by
  obtain ⟨c, h, _⟩ := phase1_total_partial tk_elab
  rw [tkCol, h]; rfl

theorem tk_build : Buildable hdE hdBoxed Tracker.slots tkTop where
  design := tk_elab
  plain := by
    intro c hc
    rw [tk_phase1] at hc
    exact Except.ok.inj hc ▸
      plain_of_two (lo := 0) (mid := 3) (hi := 7) (by decide) (by decide) (by decide +kernel) (by decide) (by decide)
  live := by
    rw [tk_events, tk_blocks]
    intro b hb; simp at hb; rcases hb with rfl | rfl | rfl | rfl <;> decide
  events := by
    rw [tk_events, tk_blocks]
    intro b hb; simp at hb
    rcases hb with rfl | rfl | rfl | rfl
    · trivial
    · simp [tkB1, PlainEvents, SignalEventsOnly, eventsOf, PlainClocks]
    · trivial
    · trivial
  visits := fun _ => List.Perm.refl _
  ports := by
    rw [tk_events, tk_blocks]
    have : ∀ b ∈ [tkB0, tkB1, tkB2, tkB3], ∀ w ∈ allWrites b.stmt, w.sym < 20 := by
      intro b hb; simp at hb; rcases hb with rfl | rfl | rfl | rfl <;> decide
    intro p hp b hb w hw
    have := this b hb w hw
    simp [tkEvents, hdIn, hdOut] at hp
    rcases hp with rfl | rfl | rfl | rfl <;> simp only <;> omega

theorem tk_net : netlist hdE Tracker.slots tkTop = .ok tkNet := by
  obtain ⟨_, _, net, _, _, _, _, h, _⟩ := netlist_total_partial tk_build
  rw [tkNet, h]; rfl

theorem tk_marked : Marked hdBoxed hdE.opts.propCuts id tkTop tkTop :=
  ⟨rfl, distinct_of_nodup (by rw [tk_events]; decide +kernel)⟩

theorem tk_loops : combLoops tkNet = [] := by decide +kernel

theorem tk_clocked : Clocked tkB1 := ⟨⟨_, List.mem_singleton.2 rfl, by decide⟩, by simp [tkB1, blockEvents, eventsOf]⟩

theorem tk_assign : ¬ Clocked tkB0 := fun h => by
  obtain ⟨⟨v, hv, _⟩, _⟩ := h
  cases hv

theorem tk_comb {b : Deferred} (hb : b ∈ blocksOf tkEvents) (hc : ¬ Clocked b) : b = tkB0 ∨ b = tkB2 ∨ b = tkB3 := by
  rw [tk_blocks] at hb; simp at hb
  rcases hb with h | rfl | h
  · exact .inl h
  · exact absurd tk_clocked hc
  · exact .inr h

theorem tk_reg {b : Deferred} (hb : b ∈ blocksOf tkEvents) (hc : Clocked b) : b = tkB1 := by
  rw [tk_blocks] at hb; simp at hb
  rcases hb with rfl | h | rfl | rfl
  · exact absurd hc tk_assign
  · exact h
  · exact absurd hc (tk_clear (by simp))
  · exact absurd hc (tk_clear (by simp))

theorem tk_declares {y : Nat} (h : y < 20) : ∀ ev ∈ tkEvents, y ∉ declares ev := by
  intro ev hev hy
  simp [tkEvents] at hev
  rcases hev with rfl | rfl | rfl | rfl | rfl | rfl | rfl | rfl <;> simp [declares, hdIn, hdOut] at hy <;> omega

theorem tk_writes {w : Wr} (hw : w ∈ allWrites tkB1.stmt) : w = ⟨2, ⟨0, 7⟩, tkAt 2, false⟩ := by
  simpa [tkB1, Deferred.stmt, allWrites, asgWrites, dsRef] using hw

theorem tk_bare {y : Nat} (h : y < 20) (h2 : y ≠ 2) : Bare tkEvents y := by
  refine ⟨tk_declares h, fun b hb hc w hw => ?_⟩
  obtain rfl := tk_reg hb hc
  obtain rfl := tk_writes hw
  exact fun e => h2 e.symm

theorem tk_no_conn {p : PortDecl} {k : Conn} : ¬ Before tkEvents p k := by
  intro h
  have := (before_mem h).2
  simp [tkEvents] at this

theorem tk_no_inlet {y q x j : Nat} : ¬ Inlet hdE tkEvents y q x j := by
  rintro ⟨p, k, _, h, _⟩
  exact tk_no_conn h.1

theorem tk_no_up {prev : Option Conn} {x y j q : Nat} {lo hi : Int} {cuts : CutReg} :
    ¬ Up hdE tkEvents cuts prev x lo hi j y q := by
  intro h
  cases h with
  | one h => obtain ⟨p, _, h, _⟩ := h; exact tk_no_conn h.1
  | more h _ => obtain ⟨p, _, h, _⟩ := h; exact tk_no_conn h.1

theorem tk_assigned {y q : Nat} {cuts : CutReg} (h : Assigned hdE tkEvents cuts y q) : y = 1 ∨ y = 4 ∨ y = 10 := by
  obtain ⟨b, hb, hc, x, j, ⟨w, hw, _, hx, _⟩, h⟩ := h
  rcases h with ⟨_, rfl, _⟩ | ⟨_, _, _, h⟩
  · have : ∀ b ∈ [tkB0, tkB2, tkB3], ∀ w ∈ allWrites b.stmt, w.sym = 1 ∨ w.sym = 4 ∨ w.sym = 10 := by
      intro b hb; simp at hb; rcases hb with rfl | rfl | rfl <;> decide
    rw [← hx]; exact this b (by simpa using tk_comb hb hc) w hw
  · exact absurd h tk_no_up

theorem tk_regular (cuts : CutReg) : Regular hdE tkEvents cuts where
  comb := by
    intro b hb hc
    rcases tk_comb hb hc with rfl | rfl | rfl <;> exact comb_single (by decide)
  settled := by
    intro b hb hc
    rcases tk_comb hb hc with rfl | rfl | rfl <;> exact settled_apart (by decide) (by decide)
  complete := by
    intro b hb hc x p ⟨w, hw, hh⟩ tr ht
    rcases tk_comb hb hc with rfl | rfl | rfl <;> cases ht <;> exact ⟨w, hw, hh⟩
  assigned := by
    intro y q h
    have := tk_assigned h
    exact ⟨tk_bare (by omega) (by omega), by simp [hdE, hdD]⟩
  inlets := fun y q x j h => absurd h tk_no_inlet
  outlets := fun p k e h => absurd h tk_no_conn
  nested := ⟨fun _ => 0, fun y q x j h => absurd h tk_no_inlet⟩

theorem tk_timed (cuts : CutReg) : Timed hdE tkEvents cuts where
  sync := by
    intro b hb hc
    obtain rfl := tk_reg hb hc
    refine .assign fun l r h => ?_
    cases h with
    | seg h1 h2 h3 =>
      simp at h1; subst h1; simp at h2; subst h2
      cases h3
      exact fits_same (r := dsRef 3) fun w hw _ => by rw [tk_writes hw]; rfl
  count := by
    intro b hb hc who r Q hu p hp
    obtain rfl := tk_reg hb hc
    have : ∀ x ∈ usesOf tkB1.stmt, x.2.bounds = ⟨0, 7⟩ := by decide
    rw [this _ (use_of hu)] at hp
    exact (eight.1 hp).1
  range := by
    intro b hb hc w hw
    obtain rfl := tk_reg hb hc
    have hb' : ∀ w ∈ allWrites tkB1.stmt, w.bounds = ⟨0, 7⟩ := by decide
    rw [hb' w hw]
    refine ⟨by decide, fun v hv _ => hb' v hv, fun b' h' who r Q hu _ => ?_⟩
    have : ∀ b ∈ [tkB0, tkB1, tkB2, tkB3], ∀ x ∈ usesOf b.stmt, x.2.bounds = ⟨0, 7⟩ := by
      intro b hb; simp at hb; rcases hb with rfl | rfl | rfl | rfl <;> decide
    exact this b' h' _ (use_of hu)
  alone := by
    intro b hb hc w hw
    obtain rfl := tk_reg hb hc
    rw [show w.sym = 2 by rw [tk_writes hw]]
    refine ⟨by simp [hdE, hdD], tk_declares (by decide), ⟨[tkB0], [tkB2, tkB3], rfl, ?_⟩,
      fun _ _ _ _ _ _ h => absurd h.1 tk_no_conn⟩
    intro b' hb' hc'
    simp at hb'
    rcases hb' with rfl | hb'
    · exact absurd hc' tk_assign
    · exact absurd hc' (tk_clear (by simp [hb']))
  outs := by
    intro b hb x j y q hk h
    rcases h with ⟨h, _⟩ | ⟨_, _, _, h⟩
    · exact absurd hk.1 h
    · exact absurd h tk_no_up
  last := by
    intro b hb hc x p loc hl w hw hh
    obtain rfl := tk_reg hb hc
    obtain rfl := tk_writes hw
    refine .inl ?_
    have hn : nbaWrites true tkB1.stmt = [⟨2, ⟨0, 7⟩, tkAt 2, false⟩] := by decide
    rcases hl with ⟨pre, v, post, h1, _, h3, _⟩ | ⟨h, _⟩
    · rw [hn] at h1
      rcases pre with _ | ⟨_, _⟩ <;> simp at h1
      obtain ⟨rfl, _⟩ := h1
      exact h3
    · exact absurd hh (h _ (by rw [hn]; simp))

theorem tk_clocks : WholeClocks hdE.D tkEvents := by
  intro b hb v hv z hz b' hb' hc' w hw hs
  obtain rfl := tk_reg hb' hc'
  rw [tk_blocks] at hb; simp at hb
  rcases hb with rfl | rfl | rfl | rfl
  · cases hv
  · simp [tkB1, blockEvents, eventsOf] at hv
    subst hv
    cases hz
    rw [tk_writes hw] at hs
    cases hs
  · cases hv
  · cases hv

/-- What the lines compute. -/
def tkM : Meaning Bool where
  value := fun loc ρ _ p => decide (0 ≤ p ∧ p ≤ 7) && if loc.line = 1 then ρ 0 p else
    if loc.line = 2 ∨ loc.line = 5 then ρ 3 p else if loc.line = 4 then ρ 2 p else false
  pick := fun _ _ _ _ => false
  feed := fun _ _ _ => false

/-- The values when `c` is always 1 and `a` becomes `v` at time 1, and with it the clock: `q` becomes `v` at
time 2. -/
def tkVals (v : Bool) (t : Nat) : Vals Bool := fun x p =>
  decide (0 ≤ p ∧ p ≤ 7) && if x = 0 ∨ x = 10 then v && decide (1 ≤ t) else
    if x = 1 ∨ x = 2 then v && decide (2 ≤ t) else decide (x = 3 ∨ x = 4)

/-- A rising edge of bit 0 of the clock. -/
def tkFire (σ : Nat → Vals Bool) : Nat → Deferred → Bool
  | t + 1, .procedural .. => !σ t 10 0 && σ (t + 1) 10 0
  | _, _ => false

theorem tk_triggers : Triggers hdE.D tkEvents tkFire := by
  intro b hb t σ σ' h
  rw [tk_blocks] at hb; simp at hb
  rcases hb with rfl | rfl | rfl | rfl
  · cases t <;> rfl
  · have key : ∀ t' ≤ t, σ t' 10 0 = σ' t' 10 0 := fun t' h' => h t' h' 10 0 ⟨⟨.posEdge, some 10⟩, by simp [tkB1, blockEvents, eventsOf], rfl, by decide⟩
    cases t with
    | zero => rfl
    | succ t =>
      show (!σ t 10 0 && σ (t + 1) 10 0) = (!σ' t 10 0 && σ' (t + 1) 10 0)
      rw [key t (by omega), key (t + 1) (by omega)]
  · cases t <;> rfl
  · cases t <;> rfl

theorem tk_faithful : Faithful tkM hdE tkEvents where
  blocks := by
    intro b hb hc
    rcases tk_comb hb hc with rfl | rfl | rfl
    · intro l hl
      simp [asgLocs] at hl; subst hl
      exact looks_lsp (g := ⟨[dsRef 10], [.lsp (dsRef 0)], tkAt 1⟩) (n := 0) (by simp) (by simp) (fun _ _ _ => by simp [tkM, tkAt])
    · intro l hl
      simp [asgLocs] at hl; subst hl
      exact looks_lsp (g := ⟨[dsRef 1], [.lsp (dsRef 2)], tkAt 4⟩) (n := 2) (by simp) (by simp) (fun _ _ _ => by simp [tkM, tkAt])
    · intro l hl
      simp [asgLocs] at hl; subst hl
      exact looks_lsp (g := ⟨[dsRef 4], [.lsp (dsRef 3)], tkAt 5⟩) (n := 3) (by simp) (by simp) (fun _ _ _ => by simp [tkM, tkAt])
  inlets := fun x j ρ ρ' _ => rfl

theorem tk_reflects : Reflects tkM tkB1.stmt := by
  intro l hl
  simp [asgLocs] at hl; subst hl
  exact looks_lsp (g := ⟨[dsRef 2], [.lsp (dsRef 3)], tkAt 2⟩) (n := 3) (by simp) (by simp) (fun _ _ _ => by simp [tkM, tkAt])

theorem tk_solves (v : Bool) (t : Nat) : Solves tkM hdE tkEvents (tkVals v t) where
  blocks := by
    intro b hb hc x p ⟨w, hw, hh⟩
    obtain ⟨_, h1, h2⟩ := hh
    rcases tk_comb hb hc with rfl | rfl | rfl <;>
      simp [tkB0, tkB2, tkB3, Deferred.stmt, allWrites, asgWrites, dsRef] at hw <;> subst hw
    · have h3 : 10 = x ∧ 0 ≤ p ∧ p ≤ 7 := ⟨h1, eight.1 h2⟩
      obtain ⟨rfl, h3⟩ := h3
      simp [tkB0, Deferred.stmt, run, store, asgWrites, dsRef, tkM, tkVals, BitRange.lower, BitRange.upper, tkAt, h3]
    · have h3 : 1 = x ∧ 0 ≤ p ∧ p ≤ 7 := ⟨h1, eight.1 h2⟩
      obtain ⟨rfl, h3⟩ := h3
      simp [tkB2, Deferred.stmt, run, store, asgWrites, dsRef, tkM, tkVals, BitRange.lower, BitRange.upper, tkAt, h3]
    · have h3 : 4 = x ∧ 0 ≤ p ∧ p ≤ 7 := ⟨h1, eight.1 h2⟩
      obtain ⟨rfl, h3⟩ := h3
      simp [tkB3, Deferred.stmt, run, store, asgWrites, dsRef, tkM, tkVals, BitRange.lower, BitRange.upper, tkAt, h3]
  inlets := fun y q x j h => absurd h tk_no_inlet
  outlets := by
    rintro x j y q ⟨p, k, e, _, h, _⟩
    exact absurd h.1 tk_no_conn

theorem tk_kept {b : Deferred} {x j : Nat} (hb : b ∈ blocksOf tkEvents) (h : Kept b x j) : b = tkB1 ∧ x = 2 ∧ j ≤ 7 := by
  obtain ⟨hc, w, hw, _, h1, h2⟩ := h
  obtain rfl := tk_reg hb hc
  obtain rfl := tk_writes hw
  exact ⟨rfl, h1.symm, by have := (eight.1 h2).2; omega⟩

theorem tk_unrolls (v : Bool) : Unrolls tkM hdE tkEvents (tkFire (tkVals v)) (tkVals v) where
  stable := tk_solves v
  step := by
    intro t b hb x j hk
    obtain ⟨rfl, rfl, hj⟩ := tk_kept hb hk
    have h3 : (0 : Int) ≤ j ∧ (j : Int) ≤ 7 := by omega
    have hl : later tkM tkB1.stmt (fun _ => true) (tkVals v t) (tkVals v t) 2 j = true := by
      simp [tkB1, Deferred.stmt, later, store, asgWrites, dsRef, tkM, tkVals, BitRange.lower, BitRange.upper, tkAt, h3]
      omega
    rw [hl]
    rcases t with _ | _ | t
    · simp [tkFire, tkVals, tkB1]
    · cases v <;> simp [tkFire, tkVals, tkB1, h3]
    · cases v <;> simp [tkFire, tkVals, tkB1, h3]

theorem tk_init : ∀ b ∈ blocksOf tkEvents, ∀ x j, Kept b x j → tkVals false 0 x j = tkVals true 0 x j := by
  intro b hb x j hk
  obtain ⟨rfl, rfl, hj⟩ := tk_kept hb hk
  simp [tkVals]

/-- Output `y` differs at time 2, though `c` is the same: because of the clock. So there is a path to its
assignment. -/
example : ∃ net', netlist hdE Tracker.slots tkTop = .ok net' ∧ tkNet = moveNet id net' ∧ ∃ t' ≤ 2, ∃ s q z i u,
      Source hdE (eventsAll hdBoxed hdE.opts.propCuts tkTop) tkCol.cuts s q ∧
      ¬ Held hdE (eventsAll hdBoxed hdE.opts.propCuts tkTop) tkCol.cuts s q ∧ tkVals false t' s q ≠ tkVals true t' s q ∧
      Brings hdE (eventsAll hdBoxed hdE.opts.propCuts tkTop) s q z i ∧
      Heeds hdE.D (eventsAll hdBoxed hdE.opts.propCuts tkTop) z i u ∧
      ∃ m n, IsAt hdE.D net' u m ∧ GivenAt hdE.D net' tkB2 1 0 n ∧ Reach (Joined tkNet) m n :=
  influence_through_clocks_partial (M := tkM) tk_build tk_phase1 tk_net tk_marked tk_loops
    (by rw [tk_events]; exact tk_regular _) (by rw [tk_events]; exact tk_timed _) (by rw [tk_events]; exact tk_clocks)
    (by rw [tk_events]; exact tk_faithful)
    (by rw [tk_events]; intro b hb hc; rw [tk_reg hb hc]; exact tk_reflects) (T := tkFire)
    (by rw [tk_events]; exact tk_triggers)
    (by rw [tk_events]; exact tk_unrolls false) (by rw [tk_events]; exact tk_unrolls true)
    (by rw [tk_events]; exact tk_init) (b := tkB2) (by rw [tk_events, tk_blocks]; simp)
    (.inr ⟨tk_clear (by simp), ⟨1, ⟨0, 7⟩, tkAt 4, true⟩, by decide, rfl, rfl, eight.2 (by decide)⟩) (by decide)

/-- What differs and comes from outside are bits of port `a`. -/
theorem tk_sources {s q t : Nat} {cuts : CutReg} (h : Source hdE tkEvents cuts s q) (hh : ¬ Held hdE tkEvents cuts s q)
    (hne : tkVals false t s q ≠ tkVals true t s q) : s = 0 ∧ q ≤ 7 := by
  have h0 : (s < 3 ∨ s = 10) ∧ q ≤ 7 := by
    have : ¬ ¬ ((s < 3 ∨ s = 10) ∧ q ≤ 7) := by
      intro hc
      apply hne
      unfold tkVals
      by_cases h1 : s < 3 ∨ s = 10
      · rw [decide_eq_false (by omega : ¬ (0 ≤ (q : Int) ∧ (q : Int) ≤ 7))]
        rfl
      · rw [if_neg (by omega), if_neg (by omega), if_neg (by omega), if_neg (by omega)]
    omega
  have g1 : s ≠ 1 := by
    rintro rfl
    exact h.1 ⟨tkB2, by rw [tk_blocks]; simp, tk_clear (by simp), 1, q,
      ⟨⟨1, ⟨0, 7⟩, tkAt 4, true⟩, by decide, rfl, rfl, eight.2 (by omega)⟩, .inl ⟨tk_clear (by simp), rfl, rfl⟩⟩
  have g3 : s ≠ 10 := by
    rintro rfl
    exact h.1 ⟨tkB0, by rw [tk_blocks]; simp, tk_assign, 10, q,
      ⟨⟨10, ⟨0, 7⟩, tkAt 1, true⟩, by decide, rfl, rfl, eight.2 (by omega)⟩, .inl ⟨tk_assign, rfl, rfl⟩⟩
  have g2 : s ≠ 2 := by
    rintro rfl
    exact hh ⟨tkB1, by rw [tk_blocks]; simp, 2, q,
      ⟨tk_clocked, ⟨2, ⟨0, 7⟩, tkAt 2, false⟩, by decide, rfl, rfl, eight.2 (by omega)⟩, .inl ⟨rfl, rfl⟩⟩
  omega

theorem tk_in {s q : Nat} {p : PortDecl} (h : LastSupply tkEvents s q p) (hs : s ≠ 3) : s = 0 ∧ p = hdIn 20 0 := by
  obtain ⟨pre, post, h1, h2, _⟩ := h
  have hm : Event.port p ∈ tkEvents := h1 ▸ by simp
  simp [tkEvents] at hm
  obtain ⟨a1, d, a2, a3, _⟩ := h2
  rcases hm with rfl | rfl | rfl | rfl <;> simp [hdIn, hdOut] at a1 a2 <;> subst a2
  · exact ⟨a1.symm, rfl⟩
  · omega
  · cases a3
  · cases a3

theorem tk_inputs : ∀ t s q, Source hdE tkEvents tkCol.cuts s q → ¬ Held hdE tkEvents tkCol.cuts s q →
    tkVals false t s q ≠ tkVals true t s q → Bare tkEvents s ∧ hdE.D.kind s ≠ .modportPort ∧ ∃ p, LastSupply tkEvents s q p := by
  intro t s q h hh hne
  obtain ⟨rfl, hq⟩ := tk_sources h hh hne
  refine ⟨tk_bare (by decide) (by decide), by simp [hdE, hdD], hdIn 20 0, [], _, rfl,
    ⟨rfl, ⟨0, 7, true⟩, by simp [hdIn], rfl, by simp, hq⟩, ?_⟩
  intro p hp hs
  simp at hp
  rcases hp with rfl | rfl | rfl <;> simp [Supplies, hdIn, hdOut] at hs

theorem tk_cuts : tkCol.cuts 4 = none := by decide +kernel

theorem tk_spans : Spans hdE tkCol.cuts (hdOut 23 4) 4 0 7 := by
  refine ⟨rfl, by decide, ⟨⟨0, 7, false⟩, by simp [hdOut], by decide, by decide⟩, fun _ l hl => ?_⟩
  rw [tk_cuts] at hl
  cases hl

/-- There is no path from port `a` to port `w`, so `w` is always the same. -/
example (t : Nat) : tkVals false t 4 0 = tkVals true t 4 0 :=
  no_path_same_clocked_partial (M := tkM) tk_build tk_phase1 tk_net tk_marked tk_loops
    (by rw [tk_events]; exact tk_regular _) (by rw [tk_events]; exact tk_timed _) (by rw [tk_events]; exact tk_clocks)
    (by rw [tk_events]; exact tk_faithful)
    (by rw [tk_events]; intro b hb hc; rw [tk_reg hb hc]; exact tk_reflects) (T := tkFire)
    (by rw [tk_events]; exact tk_triggers)
    (σ := tkVals false) (σ' := tkVals true) (by rw [tk_events]; exact tk_unrolls false) (by rw [tk_events]; exact tk_unrolls true)
    (by rw [tk_events]; exact tk_init) (by rw [tk_events]; exact tk_inputs) (b := tkB3) (x := 4) (j := 0)
    (by rw [tk_events, tk_blocks]; simp)
    (.inr ⟨tk_clear (by simp), ⟨4, ⟨0, 7⟩, tkAt 5, true⟩, by decide, rfl, rfl, eight.2 (by decide)⟩) (p := hdOut 23 4)
    (by rw [tk_events]; simp [tkEvents]) rfl (lo := 0) (hi := 7)
    tk_spans
    (by intro w hw _ _; simp [tkB3, Deferred.stmt, allWrites, asgWrites, dsRef] at hw; subst hw; decide)
    (by
      rw [tk_events]
      intro t s q n m p' h1 h2 h3 h4
      have hs : s ≠ 3 := by rintro rfl; exact h2 rfl
      obtain ⟨rfl, rfl⟩ := tk_in h1 hs
      obtain ⟨n1, x, b, hx, _, n2⟩ := h3
      obtain ⟨m1, y, b', hy, _, m2⟩ := h4
      cases hx; cases hy
      exact ⟨by decide, (by decide +kernel : ∀ n ∈ tkNet.g.nodes, ∀ m ∈ tkNet.g.nodes,
        portName (tkNet.data n) = some ['a'] → portName (tkNet.data m) = some ['e'] → findPath tkNet n m = some [])
          n n1 m m1 (by rw [n2]; rfl) (by rw [m2]; rfl)⟩) t

/-- Without the clock there would be no path from `a` to `y`: the only way is through the edge into the
register that stands for the event. -/
example : ∃ n ∈ tkNet.g.nodes, ∃ m ∈ tkNet.g.nodes, portName (tkNet.data n) = some ['a'] ∧
    portName (tkNet.data m) = some ['b'] ∧ ∃ p, findPath tkNet n m = some p ∧
      p.map (fun k => (tkNet.data k).kind) = [.port, .assignment, .state, .assignment, .port] := by
  decide +kernel

/-! ### An influence the netlist lacks

```
module t(input [7:0] a, c, output [7:0] b, e);
  always_ff @(posedge clk) q[3:0] <= a[3:0];  // line 1
  always_ff @(posedge q) b <= c;              // line 2
endmodule
``` -/

/-- The lower half of a signal. -/
def nibRef (n : Nat) : Ref := ⟨n, ⟨0, 3⟩, 0, false⟩

def pcB0 : Deferred := .procedural .alwaysFF (.timed (.signalEvent ⟨.posEdge, some 9⟩))
  (.assign (ln 1) false (.aligned [⟨[nibRef 2], [.lsp (nibRef 0)], ln 1⟩]))

def pcB1 : Deferred := .procedural .alwaysFF (.timed (.signalEvent ⟨.posEdge, some 2⟩))
  (.assign (ln 2) false (.aligned [⟨[dsRef 1], [.lsp (dsRef 3)], ln 2⟩]))

def pcTop : List Member := [.inst false ['t'] ['t'] [.port (hdIn 20 0), .port (hdIn 22 3), .port (hdOut 21 1),
  .port (hdOut 23 4), .block pcB0, .block pcB1] []]

def pcEvents : List Event := [.port (hdIn 20 0), .port (hdIn 22 3), .port (hdOut 21 1), .port (hdOut 23 4),
  .block pcB0, .block pcB1]

def pcCol : Col := (phase1 hdE pcTop).toOption.getD {}
def pcNet : NetGraph := (netlist hdE Tracker.slots pcTop).toOption.getD {}

theorem pc_events : eventsAll hdBoxed hdE.opts.propCuts pcTop = pcEvents := by
  simp [pcTop, eventsAll, events, hdBoxed, pcEvents]

theorem pc_blocks : blocksOf pcEvents = [pcB0, pcB1] := rfl

theorem pc_elab : Elaborated hdE hdBoxed pcTop where
  boxes := by simp [DecidesBoxes, Boxed, hdBoxed, hdE]
  ok := by
    rw [pc_events]
    simp [pcEvents, EventOk, hdIn, hdOut, PortDriver.hi, hdE, hdD]
  once := by
    rw [pc_events]
    show [20, 22, 21, 23].Nodup
    decide

theorem pc_phase1 : phase1 hdE pcTop = .ok pcCol := by
  obtain ⟨c, h, _⟩ := phase1_total_partial pc_elab
  rw [pcCol, h]; rfl

theorem pc_build : Buildable hdE hdBoxed Tracker.slots pcTop where
  design := pc_elab
  plain := by
    intro c hc
    rw [pc_phase1] at hc
    exact Except.ok.inj hc ▸
      plain_of_two (lo := 0) (mid := 3) (hi := 7) (by decide) (by decide) (by decide +kernel) (by decide) (by decide)
  live := by
    rw [pc_events, pc_blocks]
    intro b hb; simp at hb; rcases hb with rfl | rfl <;> decide
  events := by
    rw [pc_events, pc_blocks]
    intro b hb; simp at hb
    rcases hb with rfl | rfl <;> simp [pcB0, pcB1, PlainEvents, SignalEventsOnly, eventsOf, PlainClocks]
  visits := fun _ => List.Perm.refl _
  ports := by
    rw [pc_events, pc_blocks]
    have : ∀ b ∈ [pcB0, pcB1], ∀ w ∈ allWrites b.stmt, w.sym < 20 := by
      intro b hb; simp at hb; rcases hb with rfl | rfl <;> decide
    intro p hp b hb w hw
    have := this b hb w hw
    simp [pcEvents, hdIn, hdOut] at hp
    rcases hp with rfl | rfl | rfl | rfl <;> simp only <;> omega

theorem pc_net : netlist hdE Tracker.slots pcTop = .ok pcNet := by
  obtain ⟨_, _, net, _, _, _, _, h, _⟩ := netlist_total_partial pc_build
  rw [pcNet, h]; rfl

theorem pc_clocked {b : Deferred} (hb : b ∈ blocksOf pcEvents) : Clocked b := by
  rw [pc_blocks] at hb; simp at hb
  rcases hb with rfl | rfl <;>
    exact ⟨⟨_, List.mem_singleton.2 rfl, by decide⟩, by simp [pcB0, pcB1, blockEvents, eventsOf]⟩

theorem pc_declares {y : Nat} (h : y < 20) : ∀ ev ∈ pcEvents, y ∉ declares ev := by
  intro ev hev hy
  simp [pcEvents] at hev
  rcases hev with rfl | rfl | rfl | rfl | rfl | rfl <;> simp [declares, hdIn, hdOut] at hy <;> omega

theorem pc_writes0 {w : Wr} (hw : w ∈ allWrites pcB0.stmt) : w = ⟨2, ⟨0, 3⟩, ln 1, false⟩ := by
  simpa [pcB0, Deferred.stmt, allWrites, asgWrites, nibRef] using hw

theorem pc_writes1 {w : Wr} (hw : w ∈ allWrites pcB1.stmt) : w = ⟨1, ⟨0, 7⟩, ln 2, false⟩ := by
  simpa [pcB1, Deferred.stmt, allWrites, asgWrites, dsRef] using hw

theorem pc_no_conn {p : PortDecl} {k : Conn} : ¬ Before pcEvents p k := by
  intro h
  have := (before_mem h).2
  simp [pcEvents] at this

theorem pc_no_inlet {y q x j : Nat} : ¬ Inlet hdE pcEvents y q x j := by
  rintro ⟨p, k, _, h, _⟩
  exact pc_no_conn h.1

theorem pc_no_up {prev : Option Conn} {x y j q : Nat} {lo hi : Int} {cuts : CutReg} :
    ¬ Up hdE pcEvents cuts prev x lo hi j y q := by
  intro h
  cases h with
  | one h => obtain ⟨p, _, h, _⟩ := h; exact pc_no_conn h.1
  | more h _ => obtain ⟨p, _, h, _⟩ := h; exact pc_no_conn h.1

theorem pc_regular (cuts : CutReg) : Regular hdE pcEvents cuts where
  comb := fun b hb hc => absurd (pc_clocked hb) hc
  settled := fun b hb hc => absurd (pc_clocked hb) hc
  complete := fun b hb hc => absurd (pc_clocked hb) hc
  assigned := by
    rintro y q ⟨b, hb, hc, _⟩
    exact absurd (pc_clocked hb) hc
  inlets := fun y q x j h => absurd h pc_no_inlet
  outlets := fun p k e h => absurd h pc_no_conn
  nested := ⟨fun _ => 0, fun y q x j h => absurd h pc_no_inlet⟩

theorem pc_uses : ∀ b ∈ [pcB0, pcB1], ∀ x ∈ usesOf b.stmt, (x.2.bounds = ⟨0, 3⟩ ∨ x.2.bounds = ⟨0, 7⟩) ∧
    x.2.sym ≠ 1 ∧ x.2.sym ≠ 2 := by
  intro b hb; simp at hb; rcases hb with rfl | rfl <;> decide

theorem pc_timed (cuts : CutReg) : Timed hdE pcEvents cuts where
  sync := by
    intro b hb hc
    rw [pc_blocks] at hb; simp at hb
    rcases hb with rfl | rfl
    · refine .assign fun l r h => ?_
      cases h with
      | seg h1 h2 h3 =>
        simp at h1; subst h1; simp at h2; subst h2
        cases h3
        exact fits_same (r := nibRef 0) fun w hw _ => by rw [pc_writes0 hw]; rfl
    · refine .assign fun l r h => ?_
      cases h with
      | seg h1 h2 h3 =>
        simp at h1; subst h1; simp at h2; subst h2
        cases h3
        exact fits_same (r := dsRef 3) fun w hw _ => by rw [pc_writes1 hw]; rfl
  count := by
    intro b hb hc who r Q hu p hp
    rw [inRng_iff] at hp
    rcases (pc_uses b hb _ (use_of hu)).1 with h | h <;> simp only at h <;> rw [h] at hp <;>
      simp [BitRange.lower] at hp <;> omega
  range := by
    intro b hb hc w hw
    rw [pc_blocks] at hb; simp at hb
    have hu : ∀ b' ∈ blocksOf pcEvents, ∀ who r Q, Use Start b'.stmt who r Q → r.sym ≠ 1 ∧ r.sym ≠ 2 :=
      fun b' hb' who r Q hu => (pc_uses b' hb' _ (use_of hu)).2
    rcases hb with rfl | rfl
    · obtain rfl := pc_writes0 hw
      exact ⟨by decide, fun v hv _ => by rw [pc_writes0 hv], fun b' h' who r Q h e => absurd e (hu b' h' who r Q h).2⟩
    · obtain rfl := pc_writes1 hw
      exact ⟨by decide, fun v hv _ => by rw [pc_writes1 hv], fun b' h' who r Q h e => absurd e (hu b' h' who r Q h).1⟩
  alone := by
    intro b hb hc w hw
    rw [pc_blocks] at hb; simp at hb
    rcases hb with rfl | rfl
    · obtain rfl := pc_writes0 hw
      refine ⟨by simp [hdE, hdD], pc_declares (by decide), ⟨[], [pcB1], rfl, ?_⟩, fun _ _ _ _ _ _ h => absurd h.1 pc_no_conn⟩
      intro b' hb' _ v hv
      simp at hb'; subst hb'
      rw [pc_writes1 hv]; simp
    · obtain rfl := pc_writes1 hw
      refine ⟨by simp [hdE, hdD], pc_declares (by decide), ⟨[pcB0], [], rfl, ?_⟩, fun _ _ _ _ _ _ h => absurd h.1 pc_no_conn⟩
      intro b' hb' _ v hv
      simp at hb'; subst hb'
      rw [pc_writes0 hv]; simp
  outs := by
    intro b hb x j y q hk h
    rcases h with ⟨h, _⟩ | ⟨_, _, _, h⟩
    · exact absurd hk.1 h
    · exact absurd h pc_no_up
  last := by
    intro b hb hc x p loc hl w hw hh
    refine .inl ?_
    have hn : ∃ v, nbaWrites true b.stmt = [v] ∧ allWrites b.stmt = [v] := by
      rw [pc_blocks] at hb; simp at hb
      rcases hb with rfl | rfl <;> exact ⟨_, rfl, rfl⟩
    obtain ⟨v, hn, ha⟩ := hn
    rw [ha] at hw
    simp at hw; subst hw
    rcases hl with ⟨pre, v, post, h1, _, h3, _⟩ | ⟨h, _⟩
    · rw [hn] at h1
      rcases pre with _ | ⟨_, _⟩ <;> simp at h1
      obtain ⟨rfl, _⟩ := h1
      exact h3
    · exact absurd hh (h _ (by rw [hn]; simp))

/-- What the lines compute. -/
def pcM : Meaning Bool where
  value := fun loc ρ _ p => if loc.line = 1 then decide (0 ≤ p ∧ p ≤ 3) && ρ 0 p else decide (0 ≤ p ∧ p ≤ 7) && ρ 3 p
  pick := fun _ _ _ _ => false
  feed := fun _ _ _ => false

/-- The values when `a` is `v` and `c` is 1: `q[3:0]` is `v` from time 1 on, and `b` from time 2 on. -/
def pcVals (v : Bool) (t : Nat) : Vals Bool := fun x p =>
  decide (0 ≤ p ∧ p ≤ 7) && if x = 0 then v else if x = 1 then v && decide (2 ≤ t) else
    if x = 2 then v && decide (1 ≤ t) && decide (p ≤ 3) else decide (x = 3)

/-- `clk` has an edge at every time; the other block waits for a rising edge of bit 0 of `q`. -/
def pcFire (σ : Nat → Vals Bool) : Nat → Deferred → Bool
  | _, .procedural _ (.timed (.signalEvent ⟨_, some 9⟩)) _ => true
  | t + 1, .procedural _ (.timed (.signalEvent ⟨_, some 2⟩)) _ => !σ t 2 0 && σ (t + 1) 2 0
  | _, _ => false

theorem pc_triggers : Triggers hdE.D pcEvents pcFire := by
  intro b hb t σ σ' h
  rw [pc_blocks] at hb; simp at hb
  rcases hb with rfl | rfl
  · cases t <;> rfl
  · have key : ∀ t' ≤ t, σ t' 2 0 = σ' t' 2 0 := fun t' h' => h t' h' 2 0 ⟨⟨.posEdge, some 2⟩, by simp [pcB1, blockEvents, eventsOf], rfl, by decide⟩
    cases t with
    | zero => rfl
    | succ t =>
      show (!σ t 2 0 && σ (t + 1) 2 0) = (!σ' t 2 0 && σ' (t + 1) 2 0)
      rw [key t (by omega), key (t + 1) (by omega)]

theorem pc_reflects {b : Deferred} (hb : b ∈ blocksOf pcEvents) : Reflects pcM b.stmt := by
  rw [pc_blocks] at hb; simp at hb
  rcases hb with rfl | rfl
  · intro l hl
    simp [asgLocs] at hl; subst hl
    intro ρ ρ' h
    funext x p
    by_cases hp : 0 ≤ p ∧ p ≤ 3
    · have := h 0 p ⟨nibRef 0, .seg (g := ⟨[nibRef 2], [.lsp (nibRef 0)], ln 1⟩) (x := .lsp (nibRef 0)) (by simp) (by simp) (.lsp _),
        rfl, by rw [inRng_iff]; simp only [nibRef, BitRange.lower, BitRange.upper]; omega⟩
      simp [pcM, ln, this]
    · simp only [pcM, ln, hp, decide_false, Bool.false_and, if_true]
  · intro l hl
    simp [asgLocs] at hl; subst hl
    exact looks_lsp (g := ⟨[dsRef 1], [.lsp (dsRef 3)], ln 2⟩) (n := 3) (by simp) (by simp) (fun _ _ _ => by simp [pcM, ln])

theorem pc_kept {b : Deferred} {x j : Nat} (hb : b ∈ blocksOf pcEvents) (h : Kept b x j) :
    (b = pcB0 ∧ x = 2 ∧ j ≤ 3) ∨ b = pcB1 ∧ x = 1 ∧ j ≤ 7 := by
  obtain ⟨hc, w, hw, _, h1, h2⟩ := h
  rw [inRng_iff] at h2
  rw [pc_blocks] at hb; simp at hb
  rcases hb with rfl | rfl
  · obtain rfl := pc_writes0 hw
    exact .inl ⟨rfl, h1.symm, by simp [BitRange.upper] at h2; omega⟩
  · obtain rfl := pc_writes1 hw
    exact .inr ⟨rfl, h1.symm, by simp [BitRange.upper] at h2; omega⟩

theorem pc_unrolls (v : Bool) : Unrolls pcM hdE pcEvents (pcFire (pcVals v)) (pcVals v) where
  stable t := by
    refine ⟨fun b hb hc => absurd (pc_clocked hb) hc, fun y q x j h => absurd h pc_no_inlet, ?_⟩
    rintro x j y q ⟨p, k, e, _, h, _⟩
    exact absurd h.1 pc_no_conn
  step := by
    intro t b hb x j hk
    rcases pc_kept hb hk with ⟨rfl, rfl, hj⟩ | ⟨rfl, rfl, hj⟩
    · have h3 : (0 : Int) ≤ j ∧ (j : Int) ≤ 3 := by omega
      have h4 : (0 : Int) ≤ j ∧ (j : Int) ≤ 7 := by omega
      have hl : later pcM pcB0.stmt (fun _ => true) (pcVals v t) (pcVals v t) 2 j = v := by
        simp [pcB0, Deferred.stmt, later, store, asgWrites, nibRef, pcM, pcVals, BitRange.lower, BitRange.upper, ln, h3, h4]
        omega
      have hf : pcFire (pcVals v) t pcB0 = true := by cases t <;> rfl
      rw [hl, hf]
      simp [pcVals, h3, h4]
    · have h3 : (0 : Int) ≤ j ∧ (j : Int) ≤ 7 := by omega
      have hl : later pcM pcB1.stmt (fun _ => true) (pcVals v t) (pcVals v t) 1 j = true := by
        simp [pcB1, Deferred.stmt, later, store, asgWrites, dsRef, pcM, pcVals, BitRange.lower, BitRange.upper, ln, h3]
        omega
      rw [hl]
      rcases t with _ | _ | t
      · simp [pcFire, pcVals, pcB1]
      · cases v <;> simp [pcFire, pcVals, pcB1, h3]
      · cases v <;> simp [pcFire, pcVals, pcB1, h3]

theorem pc_sources {s q t : Nat} {cuts : CutReg} (hh : ¬ Held hdE pcEvents cuts s q)
    (hne : pcVals false t s q ≠ pcVals true t s q) : LastSupply pcEvents s q (hdIn 20 0) := by
  have hq : q ≤ 7 := by
    refine Classical.byContradiction fun hc => hne ?_
    unfold pcVals
    rw [decide_eq_false (by omega : ¬ (0 ≤ (q : Int) ∧ (q : Int) ≤ 7))]
    rfl
  match s, hh, hne with
  | 0, _, _ =>
    refine ⟨[], _, rfl, ⟨rfl, ⟨0, 7, true⟩, by simp [hdIn], rfl, by simp, hq⟩, ?_⟩
    intro p hp hs
    simp at hp
    rcases hp with rfl | rfl | rfl <;> simp [Supplies, hdIn, hdOut] at hs
  | 1, hh, _ =>
    exact absurd ⟨pcB1, by rw [pc_blocks]; simp, 1, q,
      ⟨pc_clocked (by rw [pc_blocks]; simp), ⟨1, ⟨0, 7⟩, ln 2, false⟩, by decide, rfl, rfl, eight.2 (by omega)⟩, .inl ⟨rfl, rfl⟩⟩ hh
  | 2, hh, hne =>
    have hq3 : q ≤ 3 := by
      refine Classical.byContradiction fun hc => hne ?_
      have : ¬ (q : Int) ≤ 3 := by omega
      simp [pcVals, this]
    exact absurd ⟨pcB0, by rw [pc_blocks]; simp, 2, q,
      ⟨pc_clocked (by rw [pc_blocks]; simp), ⟨2, ⟨0, 3⟩, ln 1, false⟩, by decide, rfl, rfl, by
        rw [inRng_iff]; simp [BitRange.lower, BitRange.upper]; omega⟩, .inl ⟨rfl, rfl⟩⟩ hh
  | 3, _, h => exact absurd rfl h
  | n + 4, _, h => exact absurd rfl h

/-- C90 fails for a clock that is a register written in part, because the register's node has the written
range and the event has the range of the whole signal, and the two are compared for equality: the two
observations differ, among the bits that come from outside, in bits of `a` only; at time 2 they differ in a
bit of output `b`; and no query for a path from `a` to `b` finds one. All hypotheses of C90 but `WholeClocks`
hold. -/
theorem clock_influence_lost :
    Buildable hdE hdBoxed Tracker.slots pcTop ∧ Distinct (eventsAll hdBoxed hdE.opts.propCuts pcTop) ∧
    ∃ c net, phase1 hdE pcTop = .ok c ∧ netlist hdE Tracker.slots pcTop = .ok net ∧ combLoops net = [] ∧
    Regular hdE (eventsAll hdBoxed hdE.opts.propCuts pcTop) c.cuts ∧
    Timed hdE (eventsAll hdBoxed hdE.opts.propCuts pcTop) c.cuts ∧
    ∃ (M : Meaning Bool) (T : (Nat → Vals Bool) → Nat → Deferred → Bool) (σ σ' : Nat → Vals Bool),
      Faithful M hdE (eventsAll hdBoxed hdE.opts.propCuts pcTop) ∧
      (∀ b ∈ blocksOf (eventsAll hdBoxed hdE.opts.propCuts pcTop), Clocked b → Reflects M b.stmt) ∧
      Triggers hdE.D (eventsAll hdBoxed hdE.opts.propCuts pcTop) T ∧
      Unrolls M hdE (eventsAll hdBoxed hdE.opts.propCuts pcTop) (T σ) σ ∧
      Unrolls M hdE (eventsAll hdBoxed hdE.opts.propCuts pcTop) (T σ') σ' ∧
      (∀ b ∈ blocksOf (eventsAll hdBoxed hdE.opts.propCuts pcTop), ∀ x j, Kept b x j → σ 0 x j = σ' 0 x j) ∧
      (∀ t s q, Source hdE (eventsAll hdBoxed hdE.opts.propCuts pcTop) c.cuts s q →
        ¬ Held hdE (eventsAll hdBoxed hdE.opts.propCuts pcTop) c.cuts s q → σ t s q ≠ σ' t s q →
        LastSupply (eventsAll hdBoxed hdE.opts.propCuts pcTop) s q (hdIn 20 0)) ∧
      σ 2 1 0 ≠ σ' 2 1 0 ∧
      ∀ q n m, PortNode hdE.D net (hdIn 20 0) q n → PortNode hdE.D net (hdOut 21 1) 0 m → findPath net n m = some [] := by
  refine ⟨pc_build, ?_, pcCol, pcNet, pc_phase1, pc_net, by decide +kernel, ?_⟩
  · rw [pc_events]
    exact distinct_of_nodup (by decide +kernel)
  rw [pc_events]
  refine ⟨pc_regular _, pc_timed _, pcM, pcFire, pcVals false, pcVals true,
    ⟨fun b hb h => absurd (pc_clocked hb) h, fun _ _ _ _ _ => rfl⟩, fun b hb _ => pc_reflects hb, pc_triggers,
    pc_unrolls false, pc_unrolls true, ?_, fun t s q _ h => pc_sources h, by decide, ?_⟩
  · intro b hb x j hk
    rcases pc_kept hb hk with ⟨_, rfl, _⟩ | ⟨_, rfl, _⟩ <;> simp [pcVals]
  · intro q n m h3 h4
    obtain ⟨n1, x, b, hx, _, n2⟩ := h3
    obtain ⟨m1, y, b', hy, _, m2⟩ := h4
    cases hx; cases hy
    exact (by decide +kernel : ∀ n ∈ pcNet.g.nodes, ∀ m ∈ pcNet.g.nodes,
      portName (pcNet.data n) = some ['a'] → portName (pcNet.data m) = some ['b'] →
        findPath pcNet n m = some []) n n1 m m1 (by rw [n2]; rfl) (by rw [m2]; rfl)

end Verif.Props

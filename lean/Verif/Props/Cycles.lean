import Verif.Spec.Relabel
import Verif.Proofs.Marking
import Verif.Proofs.IfacePorts
import Verif.Props.Nodes
import Verif.Props.EndToEnd
import Mathlib.Data.List.Nodup

/-! C69: combinational cycles of the design are reported. -/
namespace Verif.Props
open Verif.Model Verif.Spec Verif.Proofs

/-! ### Dependences are paths of the netlist -/

theorem use_kind {P Q : List Wr → Prop} {st : Stmt} {who : NodeData} {r : Ref} (h : Use P st who r Q) :
    who.kind = .assignment ∨ who.kind = .conditional ∨ who.kind = .case := by
  induction h with
  | note => exact .inl rfl
  | seg => exact .inl rfl
  | @cond _ k => cases k <;> simp [NodeData.kind]
  | left _ ih => exact ih
  | right _ ih => exact ih
  | first _ ih => exact ih
  | second _ ih => exact ih

theorem heads_kind {st : Stmt} {d : NodeData} (h : Heads st d) :
    d.kind = .assignment ∨ d.kind = .conditional ∨ d.kind = .case := by
  induction h with
  | assign => exact .inl rfl
  | @branch k => cases k <;> simp [NodeData.kind]
  | left _ ih => exact ih
  | right _ _ ih => exact ih
  | first _ ih => exact ih
  | second _ ih => exact ih

theorem guards_kind {st : Stmt} {u d : NodeData} (h : Guards st u d) :
    d.kind = .assignment ∨ d.kind = .conditional ∨ d.kind = .case := by
  induction h with
  | here h => exact heads_kind h
  | left _ ih => exact ih
  | right _ ih => exact ih
  | first _ ih => exact ih
  | second _ ih => exact ih

theorem crosses_kind {E : TravEnv} {es : List Event} {cuts : CutReg} {b : Deferred} {y : Nat} {v : NodeData}
    (h : Crosses E es cuts b y v) : v.kind = .assignment ∨ v.kind = .conditional ∨ v.kind = .case := by
  cases h with
  | read _ _ _ _ _ h => exact use_kind h
  | port _ _ _ _ _ _ _ _ h => exact use_kind h

theorem passes_kind {E : TravEnv} {es : List Event} {cuts : CutReg} {u v : NodeData} (h : Passes E es cuts u v) :
    v.kind = .assignment ∨ v.kind = .conditional ∨ v.kind = .case := by
  cases h with
  | across _ _ _ _ _ _ h => exact use_kind h
  | inner _ h => exact use_kind h
  | iface _ _ _ h => exact crosses_kind h
  | control _ h =>
    cases h with
    | guard h => exact guards_kind h
    | self => exact .inl rfl

/-- What crosses an interface is on a path of the netlist, of edges that avoid registers. -/
theorem crosses_hops {E : TravEnv} {es : List Event} {c : Col} {s' : Bld} {net : NetGraph} (h : Whole E es c s' net)
    {b : Deferred} (hb : b ∈ blocksOf es) {y j : Nat} {loc : TextLoc} (hl : Leaves b.stmt y j loc) {v : NodeData}
    (hc : Crosses E es c.cuts b y v) :
    ∃ a ∈ net.g.nodes, ∃ m, ∃ n ∈ net.g.nodes, net.data a = .assignment loc ∧ net.data n = v ∧ Reach (Hop net) a m ∧
      Hop net m n := by
  have hk := crosses_kind hc
  have hne : ∀ {n}, net.data n = v → (net.data n).kind ≠ .state := by
    intro n e; rw [e]; rcases hk with h | h | h <;> rw [h] <;> simp
  obtain ⟨s, W, hv, hd⟩ := h.done
  cases hc with
  | read h4 h5 h6 h7 h8 h9 h10 h11 h12 =>
    obtain ⟨m, m1, g1, g2⟩ := variable_at h.walk h4 h5
    obtain ⟨m3, m4⟩ := iface_at h h6 m1
    have m2 := h.early.data m g1
    rw [g2] at m2
    obtain ⟨a, a1, a2, a3⟩ := m3 _ hb _ _ _ hl h7
    obtain ⟨n, n1, n2, n3⟩ := m4 _ h8 _ _ _ h9 h10 h11 h12
    exact ⟨a, a1, m, n, n1, a2, n2, Reach.refl.tail ⟨a3, by rw [m2]; simp [NodeData.kind]⟩, n3, hne n2⟩
  | @port _ _ _ _ _ _ _ _ _ _ r Q h4 h5 h6 h7 h8 h9 h10 h11 h12 h13 h14 h15 h16 h17 h18 h19 =>
    subst h15
    obtain ⟨m, m1, g1, g2⟩ := variable_at h.walk h4 h5
    obtain ⟨a, a1, a2, a3⟩ := (iface_at h h6 m1).1 _ hb _ _ _ hl h7
    have m2 := h.early.data m g1
    rw [g2] at m2
    have hsup := h9
    obtain ⟨_, _, _, ⟨hin, _⟩, _⟩ := hsup
    obtain ⟨e, he, e1, e2, e3⟩ := (port_at h.walk (last_mem h9)).2.2.2 _ _ h9
    have hen := (h.walk.eff.fine.ok.vars _ e he).1
    have hj := iface_entry h m1 hin h8 he e1 e2
    have hdn : (net.data e.val).kind ≠ .state := by
      rw [h.early.data _ hen, (port_at h.walk (last_mem h9)).2.1 _ hin e he]; simp [portData, NodeData.kind]
    obtain ⟨a'', d1, d2⟩ := down h h10 (h.keep _ _ _ e3)
    obtain ⟨n, n1, _, n3, n4⟩ := hd.uses _ h11 _ r Q h12 h13 h14
    obtain ⟨pd, hp, p1, p2, _, p4⟩ := n4.queued h18 _ h16 h17
    obtain ⟨ps, pb, pn, pg⟩ := pd
    simp only at p1 p2 p4
    subst p1 p2
    have hdat : net.data n = v := by rw [h.late.data n n1, n3]
    exact ⟨a, a1, a'', n, h.late.nodes n n1, a2, hdat,
      reach_trans ((Reach.refl.tail ⟨a3, by rw [m2]; simp [NodeData.kind]⟩).tail ⟨hj, hdn⟩) d2,
      h.read _ h19 pb n pg _ hp p4 _ d1, hne hdat⟩

theorem passes_hops {E : TravEnv} {es : List Event} {c : Col} {s' : Bld} {net : NetGraph} (h : Whole E es c s' net)
    {u v : NodeData} (hp : Passes E es c.cuts u v) :
    ∃ a ∈ net.g.nodes, ∃ m, ∃ n ∈ net.g.nodes, net.data a = u ∧ net.data n = v ∧ Reach (Hop net) a m ∧ Hop net m n := by
  have hk := passes_kind hp
  have hne : ∀ {n}, net.data n = v → (net.data n).kind ≠ .state := by
    intro n e; rw [e]; rcases hk with h | h | h <;> rw [h] <;> simp
  obtain ⟨s, W, hv, hd⟩ := h.done
  cases hp with
  | @across _ _ _ _ _ _ _ _ _ _ r Q h1 h2 h3 h4 h5 h6 h7 h8 h9 h10 h11 h12 h13 h14 =>
    subst h10
    obtain ⟨a, a1, a2, _, a', a3, a4⟩ := carried_comb h h1 h3 h4
    obtain ⟨a'', d1, d2⟩ := down h h5 a3
    obtain ⟨n, g1, _, g3, g4⟩ := hd.uses _ h6 _ r Q h7 h8 h9
    obtain ⟨p, hp, e1, e2, _, e4⟩ := g4.queued h13 _ h11 h12
    obtain ⟨ps, pb, pn, pg⟩ := p
    simp only at e1 e2 e4
    subst e1 e2
    have hdat : net.data n = v := by rw [h.late.data n g1, g3]
    exact ⟨a, a1, a'', n, h.late.nodes n g1, a2 h2, hdat, reach_trans a4 d2,
      h.read _ h14 pb n pg _ hp e4 _ d1, hne hdat⟩
  | @inner _ p loc _ r Q tr h1 h2 h3 h4 h5 h6 =>
    obtain ⟨n, g1, _, g3, g4⟩ := hd.uses _ h1 _ r Q h2 ⟨_, h4⟩ h3
    obtain ⟨m, m1, m2, m3⟩ := g4.defs p tr loc h5 h4 h6
    have hdat : net.data n = v := by rw [h.late.data n g1, g3]
    exact ⟨m, h.late.nodes m m1, m, n, h.late.nodes n g1, by rw [h.late.data m m1]; exact m2, hdat, .refl,
      h.late.join _ _ m3, hne hdat⟩
  | iface h1 _ h3 h4 => exact crosses_hops h h1 h3 h4
  | control h1 h2 =>
    obtain ⟨k, k1, n, k2, k3, k4, k5⟩ := paired_mono h.late (hd.ctrl _ h1 _ _ h2)
    exact ⟨k, k1, k, n, k2, k3, k4, .refl, k5, hne k4⟩

/-- If no two assignments or conditions have the same place in the text, there is one node for each. -/
theorem text_unique {E : TravEnv} {boxed : Str → Str → Bool} {ord : Tracker → List (Nat × Nat)}
    {top : List Member} (h : Buildable E boxed ord top) {net : NetGraph} (hn : netlist E ord top = .ok net)
    (hd : Distinct (eventsAll boxed E.opts.propCuts top)) {m n : Nat} (hm : m ∈ net.g.nodes) (hn' : n ∈ net.g.nodes)
    (e : net.data m = net.data n)
    (hk : (net.data n).kind = .assignment ∨ (net.data n).kind = .conditional ∨ (net.data n).kind = .case) : m = n := by
  have h1 := text_nodes_counted h.design h.visits hn hk
  have h2 := hd _ hk
  have h3 : 0 < (datas net).count (net.data n) := List.count_pos_iff.2 (List.mem_map.2 ⟨n, hn', rfl⟩)
  obtain ⟨k, _, _, k3⟩ := text_node_unique h.design h.visits hn hk (by omega)
  rw [k3 m hm e, k3 n hn' rfl]

/-- Then a chain of dependences is a path of the netlist. -/
theorem passes_reach {E : TravEnv} {boxed : Str → Str → Bool} {ord : Tracker → List (Nat × Nat)}
    {top : List Member} (h : Buildable E boxed ord top) {c : Col} {net : NetGraph} (hc : phase1 E top = .ok c)
    (hn : netlist E ord top = .ok net) (hd : Distinct (eventsAll boxed E.opts.propCuts top)) {d v : NodeData}
    (hr : Reach (Passes E (eventsAll boxed E.opts.propCuts top) c.cuts) d v) {n : Nat} (hn' : n ∈ net.g.nodes)
    (e : net.data n = d) (hk : d.kind = .assignment ∨ d.kind = .conditional ∨ d.kind = .case) :
    ∃ m ∈ net.g.nodes, net.data m = v ∧ Reach (CombStep net) n m := by
  obtain ⟨s', hw⟩ := built_of h hc hn
  have hs := edges_justified h.design h.visits hn
  have hcomb : ∀ {a b}, Hop net a b → CombStep net a b := fun hj => ⟨(step_iff_joined hs _ _).2 hj.1, hj.2⟩
  induction hr with
  | refl => exact ⟨n, hn', e, .refl⟩
  | tail h3 h4 ih =>
    obtain ⟨m, m1, m2, m3⟩ := ih
    obtain ⟨a, a1, x, k, k1, k2, k3, k4, k5⟩ := passes_hops hw h4
    have hk' : (net.data m).kind = .assignment ∨ (net.data m).kind = .conditional ∨ (net.data m).kind = .case := by
      rw [m2]
      cases h3 with
      | refl => exact hk
      | tail _ h => exact passes_kind h
    have : a = m := text_unique h hn hd a1 m1 (k2.trans m2.symm) hk'
    subst this
    exact ⟨k, k1, k3, (reach_trans m3 (reach_map (f := id) (fun _ _ => hcomb) k4)).tail (hcomb k5)⟩

/-- If no two assignments or conditions have the same place in the text, a cycle of the design is one of
the netlist. -/
theorem cycle_of_distinct {E : TravEnv} {boxed : Str → Str → Bool} {ord : Tracker → List (Nat × Nat)}
    {top : List Member} (h : Buildable E boxed ord top) {c : Col} {net : NetGraph} (hc : phase1 E top = .ok c)
    (hn : netlist E ord top = .ok net) (hd : Distinct (eventsAll boxed E.opts.propCuts top)) {d : NodeData}
    (hcyc : OnCycle (Passes E (eventsAll boxed E.opts.propCuts top) c.cuts) d) :
    ∃ n ∈ net.g.nodes, net.data n = d ∧ OnCycle (CombStep net) n := by
  obtain ⟨s', hw⟩ := built_of h hc hn
  have hs := edges_justified h.design h.visits hn
  have hcomb : ∀ {a b}, Hop net a b → CombStep net a b := fun hj => ⟨(step_iff_joined hs _ _).2 hj.1, hj.2⟩
  obtain ⟨u, h1, h2⟩ := hcyc
  have hk := passes_kind h2
  obtain ⟨a, a1, x, n, n1, k2, k3, k4, k5⟩ := passes_hops hw h2
  obtain ⟨m, m1, m2, m3⟩ := passes_reach h hc hn hd h1 n1 k3 hk
  have hk' : (net.data m).kind = .assignment ∨ (net.data m).kind = .conditional ∨ (net.data m).kind = .case := by
    rw [m2]
    cases h1 with
    | refl => exact hk
    | tail _ h => exact passes_kind h
  have : a = m := text_unique h hn hd a1 m1 (k2.trans m2.symm) hk'
  subst this
  exact ⟨n, n1, k3, x, reach_trans m3 (reach_map (f := id) (fun _ _ => hcomb) k4), hcomb k5⟩

theorem move_kind (f : TextLoc → TextLoc) (d : NodeData) : (moveData f d).kind = d.kind := by cases d <;> rfl

theorem comb_move {f : TextLoc → TextLoc} {net : NetGraph} {a b : Nat} (h : CombStep net a b) :
    CombStep (moveNet f net) a b :=
  ⟨h.1, fun e => h.2 ((move_kind f (net.data b)).symm.trans e)⟩

/-- C69. Every assignment, conditional or case on a combinational cycle of the design is in a reported
loop. The cycle is one of the design with a place of its own for every assignment and condition
(`marked`, which every design has: `marked_exists`), so that the instances of a module are told apart;
`f` leads to the places in the text, which the nodes of the netlist have. Missing: dependences outside
`Passes`, among them those on a condition further away (see `guarded_loop_missed`). -/
theorem cycle_reported_partial {E : TravEnv} {boxed : Str → Str → Bool} {ord : Tracker → List (Nat × Nat)}
    {top marked : List Member} {f : TextLoc → TextLoc} (h : Buildable E boxed ord top) {c : Col} {net : NetGraph}
    (hc : phase1 E top = .ok c) (hn : netlist E ord top = .ok net) (hm : Marked boxed E.opts.propCuts f marked top)
    {d : NodeData} (hcyc : OnCycle (Passes E (eventsAll boxed E.opts.propCuts marked) c.cuts) d) :
    ∃ n ∈ net.g.nodes, net.data n = moveData f d ∧ ∃ l ∈ combLoops net, n ∈ l := by
  obtain ⟨hs, hd⟩ := hm
  subst hs
  have hb := buildable_move h
  have hs := edges_justified h.design h.visits hn
  rw [move_phase1] at hc
  rw [move_netlist] at hn
  cases hc' : phase1 E marked with
  | error e => rw [hc'] at hc; cases hc
  | ok c' =>
    cases hn' : netlist E ord marked with
    | error e => rw [hn'] at hn; cases hn
    | ok net' =>
      rw [hc'] at hc
      rw [hn'] at hn
      cases hc
      cases hn
      obtain ⟨n, n1, n2, x, h1, h2⟩ := cycle_of_distinct hb hc' hn' hd hcyc
      obtain ⟨l, l1, l2⟩ := (loops_cover_cycles_partial (moveNet f net') hs.1).1 n n1
        ⟨x, reach_map (f := id) (fun _ _ => comb_move) h1, comb_move h2⟩
      exact ⟨n, n1, by rw [← n2]; rfl, l, l1, l2⟩

/-! ### Concrete cases -/

/-- `always_comb if (c) b = a;` -/
def guardB : Deferred := .procedural .alwaysComb .other (.seq (.branch false (ln 1)) (.seq (.reads [dsRef 2])
  (.choose true (.assign (ln 2) true (.aligned [⟨[dsRef 1], [.lsp (dsRef 0)], ln 2⟩])) .skip)))

/-- `assign c = b;` -/
def backB : Deferred := .continuous (ln 3) (.aligned [⟨[dsRef 2], [.lsp (dsRef 1)], ln 3⟩])

/-- `always_comb if (c) begin d = a; b = a; end` -/
def guardTwoB : Deferred := .procedural .alwaysComb .other (.seq (.branch false (ln 1)) (.seq (.reads [dsRef 2])
  (.choose true (.seq (.assign (ln 4) true (.aligned [⟨[dsRef 3], [.lsp (dsRef 0)], ln 4⟩]))
    (.assign (ln 2) true (.aligned [⟨[dsRef 1], [.lsp (dsRef 0)], ln 2⟩]))) .skip)))

theorem distinct_of_nodup {es : List Event} (h : (textNodes es).Nodup) : Distinct es :=
  fun d _ => List.nodup_iff_count_le_one.1 h d

def twoCol (b1 b2 : Deferred) : Col := (phase1 hdE (twoBlocks b1 b2)).toOption.getD {}

theorem two_events (b1 b2 : Deferred) :
    eventsAll hdBoxed hdE.opts.propCuts (twoBlocks b1 b2) = [.port (hdIn 20 0), .block b1, .block b2] := by
  simp [twoBlocks, eventsAll, events, hdBoxed]

theorem two_phase1 (b1 b2 : Deferred) : phase1 hdE (twoBlocks b1 b2) = .ok (twoCol b1 b2) := by
  obtain ⟨c, h, _⟩ := phase1_total_partial (two_elab b1 b2)
  rw [twoCol, h]; rfl

theorem loop_build : Buildable hdE hdBoxed Tracker.slots (twoBlocks guardB backB) where
  design := two_elab _ _
  plain := by
    intro c hc
    rw [two_phase1] at hc
    exact Except.ok.inj hc ▸
      plain_of_two (lo := 0) (mid := 3) (hi := 7) (by decide) (by decide) (by decide +kernel) (by decide) (by decide)
  live := by
    rw [two_events]; intro b hb; simp [blocksOf] at hb; rcases hb with rfl | rfl <;> decide
  events := by
    rw [two_events]; intro b hb; simp [blocksOf] at hb
    rcases hb with rfl | rfl
    · simp [guardB, PlainEvents, SignalEventsOnly, eventsOf, PlainClocks]
    · trivial
  visits := fun _ => List.Perm.refl _
  ports := by
    rw [two_events]
    intro p hp b hb w hw
    simp [blocksOf] at hp hb
    subst hp
    have : ∀ w ∈ allWrites guardB.stmt ++ allWrites backB.stmt, w.sym < 20 := by decide
    have := this w (by rcases hb with rfl | rfl <;> simp [hw])
    simp only [hdIn]; omega

theorem loop_bare {y : Nat} (h : y < 20) : Bare (eventsAll hdBoxed hdE.opts.propCuts (twoBlocks guardB backB)) y := by
  rw [two_events]
  refine ⟨fun ev hev hy => ?_, fun b hb hc => ?_⟩
  · simp at hev
    rcases hev with rfl | rfl | rfl <;> simp [declares, hdIn] at hy
    omega
  · simp [blocksOf] at hb
    obtain ⟨⟨v, hv, _⟩, _⟩ := hc
    rcases hb with rfl | rfl <;> cases hv

/-- The loop `if (c) b = a;`, `c = b;` is a cycle of the design: the condition is in front of line 2,
line 3 reads what line 2 leaves in `b`, and the condition reads what line 3 leaves in `c`. -/
theorem loop_cycle (cuts : CutReg) :
    OnCycle (Passes hdE (eventsAll hdBoxed hdE.opts.propCuts (twoBlocks guardB backB)) cuts) (.conditional (ln 1)) := by
  have hn : ∀ b ∈ [guardB, backB], ¬ Clocked b := by
    intro b hb hc
    obtain ⟨⟨v, hv, _⟩, _⟩ := hc
    simp at hb
    rcases hb with rfl | rfl <;> cases hv
  have hbl : blocksOf (eventsAll hdBoxed hdE.opts.propCuts (twoBlocks guardB backB)) = [guardB, backB] := by
    rw [two_events]; rfl
  have e1 : Passes hdE (eventsAll hdBoxed hdE.opts.propCuts (twoBlocks guardB backB)) cuts
      (.conditional (ln 1)) (.assignment (ln 2)) :=
    .control (b := guardB) (by rw [hbl]; simp)
      (.guard (.here (.right (.reads _) (.first (.assign (by simp [asgLocs]))))))
  have e2 : Passes hdE (eventsAll hdBoxed hdE.opts.propCuts (twoBlocks guardB backB)) cuts
      (.assignment (ln 2)) (.assignment (ln 3)) := by
    refine .across (b1 := guardB) (b2 := backB) (x := 1) (j := 0) (y := 1) (q := 0) (z := 1) (i := 0)
      (r := dsRef 1) (Q := Start) (by rw [hbl]; simp) (hn _ (by simp)) ?_ (.inl ⟨hn _ (by simp), rfl, rfl⟩)
      (.refl _ _) (by rw [hbl]; simp)
      (.seg (List.mem_singleton.2 rfl) (List.mem_singleton.2 rfl) (.lsp _) ?_) ⟨[], rfl⟩ (.inr ?_) rfl
      (by simp [InRng, dsRef]) ?_ (by decide) (loop_bare (by decide))
    · refine .inr ⟨by simp [guardB, Deferred.stmt, nbaWrites], _,
        .seq (.branch _ _) (.seq (.reads _) (.first (.assign _ _ _))),
        [], ⟨1, ⟨0, 7⟩, ln 2, true⟩, [], rfl, ⟨rfl, rfl, by simp [InRng]⟩, rfl, by simp⟩
    · intro p _ w hw hh
      cases List.mem_singleton.1 hw
      exact absurd hh.2.1 (by decide)
    · rintro k ⟨w, hw, hs, _⟩
      have : ∀ w ∈ allWrites backB.stmt, w.sym ≠ 1 := by decide
      exact absurd hs (this w hw)
    · rintro tr rfl w hw
      cases hw
  have e3 : Passes hdE (eventsAll hdBoxed hdE.opts.propCuts (twoBlocks guardB backB)) cuts
      (.assignment (ln 3)) (.conditional (ln 1)) := by
    refine .across (b1 := backB) (b2 := guardB) (x := 2) (j := 0) (y := 2) (q := 0) (z := 2) (i := 0)
      (r := dsRef 2) (Q := Start) (by rw [hbl]; simp) (hn _ (by simp)) ?_ (.inl ⟨hn _ (by simp), rfl, rfl⟩)
      (.refl _ _) (by rw [hbl]; simp)
      (.cond (k := false) (List.mem_singleton.2 rfl) rfl) ⟨[], rfl⟩ (.inr ?_) rfl
      (by simp [InRng, dsRef]) ?_ (by decide) (loop_bare (by decide))
    · refine .inr ⟨by simp [backB, Deferred.stmt, nbaWrites], _, .assign _ _ _,
        [], ⟨2, ⟨0, 7⟩, ln 3, true⟩, [], rfl, ⟨rfl, rfl, by simp [InRng]⟩, rfl, by simp⟩
    · rintro k ⟨w, hw, hs, _⟩
      have : ∀ w ∈ allWrites guardB.stmt, w.sym ≠ 2 := by decide
      exact absurd hs (this w hw)
    · rintro tr rfl w hw
      cases hw
  exact ⟨_, (Reach.refl.tail e1).tail e2, e3⟩

/-- The hypotheses of `cycle_of_distinct` are met by that loop, which goes over the condition (node 1),
line 2 (node 2) and line 3 (node 4). -/
example : Buildable hdE hdBoxed Tracker.slots (twoBlocks guardB backB) ∧
    phase1 hdE (twoBlocks guardB backB) = .ok (twoCol guardB backB) ∧
    netlist hdE Tracker.slots (twoBlocks guardB backB) = .ok (twoNet guardB backB) ∧
    Distinct (eventsAll hdBoxed hdE.opts.propCuts (twoBlocks guardB backB)) ∧
    OnCycle (Passes hdE (eventsAll hdBoxed hdE.opts.propCuts (twoBlocks guardB backB)) (twoCol guardB backB).cuts)
      (.conditional (ln 1)) ∧
    combLoops (twoNet guardB backB) = [[1, 2, 4]] ∧ (twoNet guardB backB).data 1 = .conditional (ln 1) :=
  ⟨loop_build, two_phase1 _ _, rfl, distinct_of_nodup (by decide +kernel), loop_cycle _, by decide +kernel,
    by decide +kernel⟩

/-! Two instances of one module connected in a ring:
```
module m(input [7:0] i, output [7:0] o);
  assign o = i;                              // line 1
endmodule
module top;
  wire [7:0] x, y;
  m m1(.i(y), .o(x)); m m2(.i(x), .o(y));
endmodule
```
The ports are 22 to 25, the signals `x`, `y` are 2 and 9, the insides of the ports 3 to 6. The second
instance has line `l`. -/

def rgB (l src dst : Nat) : Deferred := .continuous (ln l) (.aligned [⟨[dsRef dst], [.lsp (dsRef src)], ln l⟩])
def rgK (sym x y : Nat) (o : Bool) : Conn := ⟨.port sym (some x), some (hdWhole y), o, true⟩

def rgTop (l : Nat) : List Member := [.inst false ['t'] ['t']
  [.inst false ['m'] ['t', '.', 'm', '1'] [.port (hdIn 22 3), .port (hdOut 23 4), .block (rgB 1 3 4)]
      [rgK 22 3 9 false, rgK 23 4 2 true],
    .inst false ['m'] ['t', '.', 'm', '2'] [.port (hdIn 24 5), .port (hdOut 25 6), .block (rgB l 5 6)]
      [rgK 24 5 2 false, rgK 25 6 9 true]] []]

def rgEvents (l : Nat) : List Event := [.cuts (rgK 22 3 9 false), .cuts (rgK 23 4 2 true), .port (hdIn 22 3),
  .port (hdOut 23 4), .block (rgB 1 3 4), .connect (rgK 22 3 9 false), .connect (rgK 23 4 2 true),
  .cuts (rgK 24 5 2 false), .cuts (rgK 25 6 9 true), .port (hdIn 24 5), .port (hdOut 25 6), .block (rgB l 5 6),
  .connect (rgK 24 5 2 false), .connect (rgK 25 6 9 true)]

theorem rg_events (l : Nat) : eventsAll hdBoxed true (rgTop l) = rgEvents l := by
  simp [rgTop, eventsAll, events, hdBoxed, rgEvents]

def rgCol : Col := (phase1 hdE (rgTop 1)).toOption.getD {}
def rgNet : NetGraph := (netlist hdE Tracker.slots (rgTop 1)).toOption.getD {}

theorem rg_elab (l : Nat) : Elaborated hdE hdBoxed (rgTop l) where
  boxes := by simp [DecidesBoxes, Boxed, hdBoxed, hdE]
  ok := by
    show ∀ ev ∈ eventsAll hdBoxed true (rgTop l), _
    rw [rg_events]
    simp [rgEvents, EventOk, hdIn, hdOut, PortDriver.hi, hdE, hdD, rgK, hdWhole, WT]
  once := by
    show ((eventsAll hdBoxed true (rgTop l)).flatMap declares).Nodup
    rw [rg_events]
    show [22, 23, 24, 25].Nodup
    decide

theorem rg_phase1 : phase1 hdE (rgTop 1) = .ok rgCol := by
  obtain ⟨c, h, _⟩ := phase1_total_partial (rg_elab 1)
  rw [rgCol, h]; rfl

theorem rg_blocks (l : Nat) : blocksOf (rgEvents l) = [rgB 1 3 4, rgB l 5 6] := rfl

theorem rg_build : Buildable hdE hdBoxed Tracker.slots (rgTop 1) where
  design := rg_elab 1
  plain := by
    intro c hc
    rw [rg_phase1] at hc
    exact Except.ok.inj hc ▸
      plain_of_two (lo := 0) (mid := 3) (hi := 7) (by decide) (by decide) (by decide +kernel) (by decide) (by decide)
  live := by
    show ∀ b ∈ blocksOf (eventsAll hdBoxed true (rgTop 1)), _
    rw [rg_events, rg_blocks]
    intro b hb; simp at hb; rcases hb with rfl | rfl <;> decide
  events := by
    show ∀ b ∈ blocksOf (eventsAll hdBoxed true (rgTop 1)), _
    rw [rg_events, rg_blocks]
    intro b hb; simp at hb; rcases hb with rfl | rfl <;> trivial
  visits := fun _ => List.Perm.refl _
  ports := by
    show ∀ p, .port p ∈ eventsAll hdBoxed true (rgTop 1) → ∀ b ∈ blocksOf (eventsAll hdBoxed true (rgTop 1)), _
    rw [rg_events, rg_blocks]
    have : ∀ b ∈ [rgB 1 3 4, rgB 1 5 6], ∀ w ∈ allWrites b.stmt, w.sym < 20 := by
      intro b hb; simp at hb; rcases hb with rfl | rfl <;> decide
    intro p hp b hb w hw
    have := this b hb w hw
    simp [rgEvents, hdIn, hdOut] at hp
    rcases hp with rfl | rfl | rfl | rfl <;> simp only <;> omega

theorem rg_bare {l y : Nat} (h : y < 20) : Bare (rgEvents l) y := by
  refine ⟨fun ev hev => ?_, fun b hb hc => ?_⟩
  · have : ∀ ev ∈ rgEvents l, ∀ z ∈ declares ev, 20 ≤ z := by
      intro ev hev; simp [rgEvents] at hev
      rcases hev with rfl | rfl | rfl | rfl | rfl | rfl | rfl | rfl | rfl | rfl | rfl | rfl | rfl | rfl <;>
        simp [declares, hdIn, hdOut]
    intro hy
    have := this ev hev y hy
    omega
  · rw [rg_blocks] at hb
    simp at hb
    obtain ⟨⟨v, hv, _⟩, _⟩ := hc
    rcases hb with rfl | rfl <;> cases hv

theorem rg_supply {l : Nat} {p : PortDecl} (h : .port p ∈ rgEvents l) {x j : Nat} (hs : Supplies p x j) :
    p = hdIn 22 3 ∧ x = 3 ∨ p = hdIn 24 5 ∧ x = 5 := by
  obtain ⟨h1, d, h2, h3, _⟩ := hs
  simp [rgEvents] at h
  rcases h with rfl | rfl | rfl | rfl <;> simp [hdIn, hdOut] at h1 h2 <;> subst h2 <;>
    simp_all [hdIn]

theorem rg_tied {l : Nat} {p : PortDecl} {sym x j y : Nat} {o : Bool} (hp : p.sym = sym)
    (hb : Before (rgEvents l) p (rgK sym x y o)) (hw : hdD.width sym = 8) :
    Tied hdE (rgEvents l) p (rgK sym x y o) j y j ∧ Direct hdE.opts hdD (rgK sym x y o) ∧
      ∀ j' q', j' < 8 → Ties hdE.opts hdD (rgK sym x y o) sym j' y q' → q' < 8 := by
  subst hp
  have hbw : BitWise hdE.opts hdD (rgK p.sym x y o) p.sym (hdWhole y) := ⟨rfl, rfl, by rw [hw]; rfl⟩
  refine ⟨⟨hb, ?_, ⟨_, rfl⟩, hdWhole y, rfl, .inl ⟨hbw, .inl ⟨rfl, rfl, by simp⟩⟩⟩, ?_, ?_⟩
  · intro sym i e _ he _
    cases he
    exact ⟨⟨rfl, rfl⟩, fun _ => by simp [hdWhole, Lvalue]⟩
  · intro sym i e _ he _
    cases he
    trivial
  · rintro j' q' hj ⟨_, e, he, h⟩
    cases he
    rcases h with ⟨_, h⟩ | ⟨h, _⟩
    · rcases h with ⟨_, _, h⟩ | ⟨h, _⟩ | ⟨p', hp', _⟩
      · simpa [h] using hj
      · exact absurd rfl h
      · cases hp'
    · exact absurd hbw h

theorem rg_uncut : rgCol.cuts 6 = none ∧ rgCol.cuts 4 = none := by decide +kernel

theorem rg_exit {l : Nat} {sym x y : Nat} (hb : Before (rgEvents l) (hdOut sym x) (rgK sym x y true))
    (hw : hdD.width sym = 8) (hy : y ≠ 3 ∧ y ≠ 5) (hx : hdD.port x = some sym) (hc : rgCol.cuts x = none) :
    Exits hdE (rgEvents l) rgCol.cuts none (rgK sym x y true) x 0 7 2 y 0 7 2 := by
  obtain ⟨h1, h2, h3⟩ := rg_tied (j := 2) rfl hb hw
  refine ⟨hdOut sym x, rfl, h1, h2, ?_, hx, ⟨rfl, by omega, ⟨_, List.mem_singleton.2 rfl, by simp [PortDriver.hi]⟩,
    fun _ l hl => by rw [hc] at hl; cases hl⟩, by omega, by omega, ?_, by simp⟩
  · intro p hp hs
    rcases rg_supply hp hs with ⟨_, h⟩ | ⟨_, h⟩
    · exact hy.1 h
    · exact hy.2 h
  · intro j' q' hj ht
    have := h3 j' q' (by have : hdD.width sym = 8 := hw; change j' < hdD.width sym at hj; omega) ht
    omega

theorem rg_enter_2 (l : Nat) : Enters hdE (rgEvents l) 2 2 5 2 := by
  obtain ⟨h1, _, _⟩ := rg_tied (l := l) (p := hdIn 24 5) (sym := 24) (x := 5) (y := 2) (o := false) (j := 2) rfl
    ⟨(rgEvents l).take 9, ((rgEvents l).take 12).drop 10, (rgEvents l).drop 13, rfl⟩ rfl
  refine ⟨hdIn 24 5, _, rfl, h1, ⟨(rgEvents l).take 9, (rgEvents l).drop 10, rfl,
    ⟨rfl, _, List.mem_singleton.2 rfl, rfl, by simp [PortDriver.hi]⟩, ?_⟩, by simp [hdE, hdD], rg_bare (by omega)⟩
  intro p hp hs
  rcases rg_supply (List.mem_of_mem_drop hp) hs with ⟨_, h⟩ | ⟨h, _⟩
  · cases h
  · subst h; simp [rgEvents, hdIn, hdOut] at hp

theorem rg_enter_1 (l : Nat) : Enters hdE (rgEvents l) 9 2 3 2 := by
  obtain ⟨h1, _, _⟩ := rg_tied (l := l) (p := hdIn 22 3) (sym := 22) (x := 3) (y := 9) (o := false) (j := 2) rfl
    ⟨(rgEvents l).take 2, ((rgEvents l).take 5).drop 3, (rgEvents l).drop 6, rfl⟩ rfl
  refine ⟨hdIn 22 3, _, rfl, h1, ⟨(rgEvents l).take 2, (rgEvents l).drop 3, rfl,
    ⟨rfl, _, List.mem_singleton.2 rfl, rfl, by simp [PortDriver.hi]⟩, ?_⟩, by simp [hdE, hdD], rg_bare (by omega)⟩
  intro p hp hs
  rcases rg_supply (List.mem_of_mem_drop hp) hs with ⟨h, _⟩ | ⟨_, h⟩
  · subst h; simp [rgEvents, hdIn, hdOut] at hp
  · cases h

/-- From one instance to the other: line `l1` leaves bit 2 of `x`, which arrives in `y` and enters the
other instance as `z`, read by line `l2`. -/
theorem rg_pass {l l1 l2 x y z s d : Nat} (hb1 : rgB l1 s x ∈ blocksOf (rgEvents l))
    (hu : Up hdE (rgEvents l) rgCol.cuts none x 0 7 2 y 2) (he : Enters hdE (rgEvents l) y 2 z 2)
    (hb2 : rgB l2 z d ∈ blocksOf (rgEvents l)) (hz : z < 20) (hne : d ≠ z) :
    Passes hdE (rgEvents l) rgCol.cuts (.assignment (ln l1)) (.assignment (ln l2)) := by
  refine .across (b1 := rgB l1 s x) (b2 := rgB l2 z d) (x := x) (j := 2) (y := y) (q := 2) (z := z) (i := 2)
    (r := dsRef z) (Q := Start) hb1 ?_ (.inr ⟨by simp [rgB, Deferred.stmt, nbaWrites], _, .assign _ _ _, [],
      ⟨x, ⟨0, 7⟩, ln l1, true⟩, [], rfl, ⟨rfl, rfl, by simp [InRng]⟩, rfl, by simp⟩)
    (.inr ⟨0, 7, ?_, hu⟩) (.step he (.refl _ _)) hb2
    (.seg (List.mem_singleton.2 rfl) (List.mem_singleton.2 rfl) (.lsp _) ?_) ⟨[], rfl⟩ (.inr ?_) rfl
    (by simp [InRng, dsRef]) ?_ (by simp [hdE, hdD]) (rg_bare hz)
  · rintro ⟨⟨v, hv, _⟩, _⟩
    cases hv
  · intro w hw _ _
    cases List.mem_singleton.1 hw
    simp only [dsRef, BitRange.lower, BitRange.upper]
    omega
  · intro p _ w hw hh
    cases List.mem_singleton.1 hw
    exact absurd hh.2.1 hne
  · rintro k ⟨w, hw, hs, _⟩
    cases List.mem_singleton.1 hw
    exact absurd hs hne
  · rintro tr rfl w hw
    cases hw

theorem rg_net : netlist hdE Tracker.slots (rgTop 1) = .ok rgNet := by
  obtain ⟨_, _, net, _, _, _, _, h, _⟩ := netlist_total_partial rg_build
  rw [rgNet, h]; rfl

theorem rg_marked : Marked hdBoxed hdE.opts.propCuts (fun _ => ln 1) (rgTop 2) (rgTop 1) :=
  ⟨by simp [rgTop, moveAll, moveMember, moveBlock, moveAsg, moveSeg, rgB],
    distinct_of_nodup (by
      have hev : eventsAll hdBoxed hdE.opts.propCuts (rgTop 2) = rgEvents 2 := rg_events 2
      rw [hev]; decide +kernel)⟩

/-- The hypotheses of `cycle_reported_partial` are met by the ring: both instances have the same line 1,
in the marked design they are lines 1 and 2, and the loop goes over both. -/
example : Buildable hdE hdBoxed Tracker.slots (rgTop 1) ∧ phase1 hdE (rgTop 1) = .ok rgCol ∧
    netlist hdE Tracker.slots (rgTop 1) = .ok rgNet ∧
    Marked hdBoxed hdE.opts.propCuts (fun _ => ln 1) (rgTop 2) (rgTop 1) ∧
    ¬ Distinct (eventsAll hdBoxed hdE.opts.propCuts (rgTop 1)) ∧
    OnCycle (Passes hdE (eventsAll hdBoxed hdE.opts.propCuts (rgTop 2)) rgCol.cuts) (.assignment (ln 2)) ∧
    combLoops rgNet = [[0, 4, 1, 2, 5, 3]] ∧
    (rgNet.g.nodes.filter fun n => rgNet.data n == .assignment (ln 1)).length = 2 := by
  have hev : ∀ l, eventsAll hdBoxed hdE.opts.propCuts (rgTop l) = rgEvents l := rg_events
  refine ⟨rg_build, rg_phase1, rg_net, rg_marked, ?_, ?_, by decide +kernel, by decide +kernel⟩
  · intro h
    have := h (.assignment (ln 1)) (.inl rfl)
    rw [hev] at this
    revert this
    decide +kernel
  · rw [hev]
    have e1 : Passes hdE (rgEvents 2) rgCol.cuts (.assignment (ln 1)) (.assignment (ln 2)) :=
      rg_pass (s := 3) (d := 6) (by rw [rg_blocks]; simp)
        (.one (rg_exit (sym := 23) (x := 4) (y := 2)
          ⟨(rgEvents 2).take 3, ((rgEvents 2).take 6).drop 4, (rgEvents 2).drop 7, rfl⟩ rfl (by omega) rfl rg_uncut.2))
        (rg_enter_2 2) (by rw [rg_blocks]; simp) (by omega) (by omega)
    have e2 : Passes hdE (rgEvents 2) rgCol.cuts (.assignment (ln 2)) (.assignment (ln 1)) :=
      rg_pass (s := 5) (d := 4) (by rw [rg_blocks]; simp)
        (.one (rg_exit (sym := 25) (x := 6) (y := 9)
          ⟨(rgEvents 2).take 10, ((rgEvents 2).take 13).drop 11, (rgEvents 2).drop 14, rfl⟩ rfl (by omega) rfl rg_uncut.1))
        (rg_enter_1 2) (by rw [rg_blocks]; simp) (by omega) (by omega)
    exact ⟨_, Reach.refl.tail e2, e1⟩

/-- `assign c = c;` -/
def selfB : Deferred := .continuous (ln 3) (.aligned [⟨[dsRef 2], [.lsp (dsRef 2)], ln 3⟩])

/-- An assignment that reads itself passes its value to itself, and is reported. -/
example (cuts : CutReg) :
    OnCycle (Passes hdE (eventsAll hdBoxed hdE.opts.propCuts (twoBlocks selfB lineB)) cuts) (.assignment (ln 3)) ∧
    combLoops (twoNet selfB lineB) = [[1]] ∧ (twoNet selfB lineB).data 1 = .assignment (ln 3) := by
  refine ⟨⟨_, .refl, .control (b := selfB) (by rw [two_events]; simp [blocksOf]) (.self ?_)⟩,
    by decide +kernel, by decide +kernel⟩
  exact .seg (g := ⟨[dsRef 2], [.lsp (dsRef 2)], ln 3⟩) (p := 0) (r := dsRef 2) (q := dsRef 2) ⟨[], rfl⟩
    (List.mem_singleton.2 rfl) (List.mem_singleton.2 rfl) (.lsp _) (List.mem_singleton.2 rfl) rfl (by simp [InRng, dsRef]) (by simp [InRng, dsRef])
    (.inl fun w hw _ _ p hp => by
      simp [allWrites, Deferred.stmt, selfB, asgWrites] at hw
      subst hw; exact hp)

/-- C69 is false for assignments that are not the first in their branch: with another assignment in
front of it, the same loop is not reported, because the condition has no edge to line 2. -/
theorem guarded_loop_missed :
    netlist hdE Tracker.slots (twoBlocks guardTwoB backB) = .ok (twoNet guardTwoB backB) ∧
    combLoops (twoNet guardTwoB backB) = [] :=
  ⟨rfl, by decide +kernel⟩

end Verif.Props

import Verif.Proofs.Influence
import Verif.Props.Cycles

/-! C71: without a path there is no influence. -/
namespace Verif.Props
open Verif.Model Verif.Spec Verif.Proofs

/-! ### From values to paths -/

theorem comb_back {f : TextLoc → TextLoc} {net : NetGraph} {a b : Nat} (h : CombStep (moveNet f net) a b) :
    CombStep net a b :=
  ⟨h.1, fun e => h.2 ((move_kind f (net.data b)).trans e)⟩

/-- The marked design has the netlist of the design itself up to places, and no cycles if no loop is
reported. -/
theorem marked_built {E : TravEnv} {boxed : Str → Str → Bool} {ord : Tracker → List (Nat × Nat)}
    {top marked : List Member} {f : TextLoc → TextLoc} (h : Buildable E boxed ord top) {c : Col} {net : NetGraph}
    (hc : phase1 E top = .ok c) (hn : netlist E ord top = .ok net) (hm : Marked boxed E.opts.propCuts f marked top)
    (hl : combLoops net = []) : ∃ c' net', Buildable E boxed ord marked ∧ phase1 E marked = .ok c' ∧
      c'.cuts = c.cuts ∧ netlist E ord marked = .ok net' ∧ net = moveNet f net' ∧
      ∀ d, ¬ OnCycle (Passes E (eventsAll boxed E.opts.propCuts marked) c.cuts) d := by
  obtain ⟨hs, hd⟩ := hm
  subst hs
  have hb := buildable_move h
  have hs := edges_justified h.design h.visits hn
  rw [move_phase1] at hc
  rw [move_netlist] at hn
  cases hc' : phase1 E marked with
  | error e => rw [hc'] at hc; cases hc
  | ok c' =>
    cases hn' : netlist E ord marked with
    | error e => rw [hn'] at hn; cases hn
    | ok net' =>
      rw [hc'] at hc
      rw [hn'] at hn
      cases hc
      cases hn
      refine ⟨c', net', hb, rfl, rfl, rfl, rfl, fun d hcyc => ?_⟩
      obtain ⟨n, n1, n2, x, h1, h2⟩ := cycle_of_distinct hb hc' hn' hd hcyc
      exact (loops_cover_cycles_partial (moveNet f net') hs.1).2.1 hl n n1
        ⟨x, reach_map (f := id) (fun _ _ => comb_move) h1, comb_move h2⟩

/-- What is touched can be reached in the netlist from a node that reads the source. -/
theorem touched_node {E : TravEnv} {boxed : Str → Str → Bool} {ord : Tracker → List (Nat × Nat)}
    {top : List Member} (h : Buildable E boxed ord top) {c : Col} {net : NetGraph} (hc : phase1 E top = .ok c)
    (hn : netlist E ord top = .ok net) (hd : Distinct (eventsAll boxed E.opts.propCuts top)) {z i : Nat}
    {who d : NodeData} (hf : Fetches (eventsAll boxed E.opts.propCuts top) z i who)
    (hr : Reach (Passes E (eventsAll boxed E.opts.propCuts top) c.cuts) who d) :
    ∃ m ∈ net.g.nodes, ∃ n ∈ net.g.nodes, net.data m = who ∧ net.data n = d ∧ Reach (CombStep net) m n := by
  obtain ⟨s', hw⟩ := built_of h hc hn
  obtain ⟨b, hb, _, r, Q, hu, hq, rfl, hi, hrf, hno⟩ := hf
  obtain ⟨s, W, hv, hdn⟩ := hw.done
  obtain ⟨m, g1, _, g3, _⟩ := hdn.uses b hb who r Q hu hq hrf
  have hdat : net.data m = who := by rw [hw.late.data m g1, g3]
  obtain ⟨n, n1, n2, n3⟩ := passes_reach h hc hn hd hr (hw.late.nodes m g1) hdat (use_kind hu)
  exact ⟨m, hw.late.nodes m g1, n, n1, hdat, n2, n3⟩

/-- C71. If the values of a bit that a block assigns differ between two stable states of a design, the
values of some source differ, and a path without registers leads from a node that reads the source (or a
bit of an instance connected to it) to the node of an assignment that can leave the bit its value. The
design is regular and no combinational loop is reported; assignments and conditions may compute anything
from what they read. As in C69 the text is that of the marked design, whose netlist `net'` differs from
that of the design in the places of its nodes only. Missing: designs that are not regular, where the
netlist may lack a path (see `influence_lost_second`, `influence_lost_swap`). -/
theorem influence_path_partial {V : Type} {M : Meaning V} {E : TravEnv} {boxed : Str → Str → Bool}
    {ord : Tracker → List (Nat × Nat)} {top marked : List Member} {f : TextLoc → TextLoc}
    (h : Buildable E boxed ord top) {c : Col} {net : NetGraph} (hc : phase1 E top = .ok c)
    (hn : netlist E ord top = .ok net) (hm : Marked boxed E.opts.propCuts f marked top) (hl : combLoops net = [])
    (hr : Regular E (eventsAll boxed E.opts.propCuts marked) c.cuts)
    (hf : Faithful M E (eventsAll boxed E.opts.propCuts marked)) {σ σ' : Vals V}
    (hs : Solves M E (eventsAll boxed E.opts.propCuts marked) σ)
    (hs' : Solves M E (eventsAll boxed E.opts.propCuts marked) σ') {b : Deferred}
    (hb : b ∈ blocksOf (eventsAll boxed E.opts.propCuts marked)) (hk : ¬ Clocked b) {x j : Nat}
    (hw : ∃ w ∈ allWrites b.stmt, Hits true x j w) (hne : σ x j ≠ σ' x j) :
    ∃ net', netlist E ord marked = .ok net' ∧ net = moveNet f net' ∧ ∃ loc, Leaves b.stmt x j loc ∧ ∃ s q z i who,
      Source E (eventsAll boxed E.opts.propCuts marked) c.cuts s q ∧ σ s q ≠ σ' s q ∧
      Brings E (eventsAll boxed E.opts.propCuts marked) s q z i ∧
      Fetches (eventsAll boxed E.opts.propCuts marked) z i who ∧
      ∃ m ∈ net.g.nodes, ∃ n ∈ net.g.nodes, net'.data m = who ∧ net'.data n = .assignment loc ∧
        Reach (CombStep net) m n := by
  obtain ⟨c', net', g1, g2, g3, g4, rfl, g6⟩ := marked_built h hc hn hm hl
  obtain ⟨s'', hw'⟩ := built_of g1 g2 g4
  rw [g3.symm] at g6 hr
  obtain ⟨loc, l1, s, q, z, i, who, l2, l3, l4, l5, l6⟩ := differs_touched hr hf hs hs' (datas net')
    (fun u v hp => by
      obtain ⟨a, a1, _, _, _, a2, _⟩ := passes_hops hw' hp
      exact List.mem_map.2 ⟨a, a1, a2⟩) g6 hb hk hw hne
  obtain ⟨m, m1, n, n1, m2, n2, hmn⟩ := touched_node g1 g2 g4 hm.distinct l5 l6
  exact ⟨net', g4, rfl, loc, l1, s, q, z, i, who, g3 ▸ l2, l3, l4, l5, m, m1, n, n1, m2, n2,
    reach_map (f := id) (fun _ _ => comb_move) hmn⟩

/-- The node of an input port with a bit that is read, directly or further down, has a path to the
reader. -/
theorem port_fetch_of {E : TravEnv} {es : List Event} {c : Col} {s' : Bld} {net : NetGraph} (hw : Whole E es c s' net)
    (hi' : ∀ y q x j, Inlet E es y q x j → Bare es x ∧ E.D.kind x ≠ .modportPort) {p : PortDecl} {s q z i : Nat} (hp : LastSupply es s q p) (hs : Bare es s)
    (hk : E.D.kind s ≠ .modportPort) (hbr : Brings E es s q z i) {who : NodeData} (hf : Sees es z i who) :
    ∃ n, PortNode E.D net p q n ∧ ∃ m ∈ net.g.nodes, net.data m = who ∧ Reach (Hop net) n m := by
  obtain ⟨h1, h2, h3⟩ := inlets_down hi' hbr hs hk
  obtain ⟨_, g2, _, g4⟩ := port_at hw.walk (last_mem hp)
  obtain ⟨e, e1, e2, e3, e4⟩ := g4 s q hp
  obtain ⟨a, a1, a2⟩ := down hw h1 (hw.keep _ _ _ e4)
  obtain ⟨b, hb, r, Q, hu, hq, rfl, hi, hrf, hno⟩ := hf
  obtain ⟨st, W, hv, hdn⟩ := hw.done
  obtain ⟨m, m1, _, m3, m4⟩ := hdn.uses b hb who r Q hu hq hrf
  obtain ⟨y, hy, f1, f2, _, f4⟩ := m4.queued h3 _ hi hno
  obtain ⟨ys, yb, yn, yg⟩ := y
  simp only at f1 f2 f4
  subst f1 f2
  have hdat : net.data m = who := by rw [hw.late.data m m1, m3]
  have hin := last_inner hp
  have hen := (hw.walk.eff.fine.ok.vars p.sym e e1).1
  refine ⟨e.val, ⟨hw.early.nodes _ hen, s, ⟨e.lo, e.hi⟩, hin, (inRng_iff _ _).2 ?_, ?_⟩, m, hw.late.nodes m m1,
    hdat, a2.tail ⟨hw.read _ h2 yb m yg _ hy f4 _ a1, ?_⟩⟩
  · simp only [BitRange.lower, BitRange.upper]; omega
  · rw [hw.early.data _ hen, g2 s hin e e1]; rfl
  · rw [hdat]
    rcases use_kind hu with h | h | h <;> rw [h] <;> simp

theorem port_fetch {E : TravEnv} {es : List Event} {c : Col} {s' : Bld} {net : NetGraph} (hw : Whole E es c s' net)
    (hr : Regular E es c.cuts) {p : PortDecl} {s q z i : Nat} (hp : LastSupply es s q p) (hs : Bare es s)
    (hk : E.D.kind s ≠ .modportPort) (hbr : Brings E es s q z i) {who : NodeData} (hf : Sees es z i who) :
    ∃ n, PortNode E.D net p q n ∧ ∃ m ∈ net.g.nodes, net.data m = who ∧ Reach (Hop net) n m :=
  port_fetch_of hw hr.inlets hp hs hk hbr hf

/-- C71, from input ports: if two stable states of the design differ, among the sources, in bits of
input ports only, and no path without registers leads from a node of a port with such a bit to an
assignment that can leave bit `j` of `x` its value, then bit `j` of `x` has the same value in both. -/
theorem no_path_no_influence_partial {V : Type} {M : Meaning V} {E : TravEnv} {boxed : Str → Str → Bool}
    {ord : Tracker → List (Nat × Nat)} {top marked : List Member} {f : TextLoc → TextLoc}
    (h : Buildable E boxed ord top) {c : Col} {net net' : NetGraph} (hc : phase1 E top = .ok c)
    (hn : netlist E ord top = .ok net) (hm : Marked boxed E.opts.propCuts f marked top) (hl : combLoops net = [])
    (hn' : netlist E ord marked = .ok net')
    (hr : Regular E (eventsAll boxed E.opts.propCuts marked) c.cuts)
    (hf : Faithful M E (eventsAll boxed E.opts.propCuts marked)) {σ σ' : Vals V}
    (hs : Solves M E (eventsAll boxed E.opts.propCuts marked) σ)
    (hs' : Solves M E (eventsAll boxed E.opts.propCuts marked) σ')
    (hp : ∀ s q, Source E (eventsAll boxed E.opts.propCuts marked) c.cuts s q → σ s q ≠ σ' s q →
      Bare (eventsAll boxed E.opts.propCuts marked) s ∧ E.D.kind s ≠ .modportPort ∧
        ∃ p, LastSupply (eventsAll boxed E.opts.propCuts marked) s q p) {b : Deferred}
    (hb : b ∈ blocksOf (eventsAll boxed E.opts.propCuts marked)) (hk : ¬ Clocked b) {x j : Nat}
    (hw : ∃ w ∈ allWrites b.stmt, Hits true x j w)
    (hno : ∀ (s q n : Nat) p loc m, LastSupply (eventsAll boxed E.opts.propCuts marked) s q p → σ s q ≠ σ' s q →
      PortNode E.D net p q n → Leaves b.stmt x j loc → m ∈ net.g.nodes → net'.data m = .assignment loc →
      ¬ Reach (CombStep net) n m) : σ x j = σ' x j := by
  refine Classical.byContradiction fun hne => ?_
  obtain ⟨net'', g1, g2, loc, g3, s, q, z, i, who, g4, g5, g6, g7, m, m1, n, n1, m2, n2, hmn⟩ :=
    influence_path_partial h hc hn hm hl hr hf hs hs' hb hk hw hne
  rw [hn'] at g1
  cases g1
  obtain ⟨c', _, k1, k2, k3, k4, _, _⟩ := marked_built h hc hn hm hl
  obtain ⟨s'', hw'⟩ := built_of k1 k2 hn'
  obtain ⟨p1, p2, p, p3⟩ := hp s q g4 g5
  obtain ⟨a, ⟨a1, y, bd, a2, a3, a4⟩, m', a5, a6, a7⟩ := port_fetch hw' (k3 ▸ hr) p3 p1 p2 g6 (fetches_sees g7)
  subst g2
  obtain ⟨_, _, _, r, Q, hu, _⟩ := g7
  have : m' = m := text_unique k1 hn' hm.distinct a5 m1 (a6.trans m2.symm) (by rw [m2]; exact use_kind hu)
  subst this
  have hs := edges_justified k1.design k1.visits hn'
  refine hno s q a p loc n p3 g5 ⟨a1, y, bd, a2, a3, ?_⟩ g3 n1 n2 (reach_trans ?_ hmn)
  · show moveData f (net'.data a) = _
    rw [a4]; rfl
  · exact reach_map (f := id) (fun _ _ hj => comb_move ⟨(step_iff_joined hs _ _).2 hj.1, hj.2⟩) a7

/-- C71, from input ports to an output port, in terms of the answers of the tool: if it reports no
combinational loop, and answers every query for a combinational path from a node of an input port with a
changed bit to a node of output port `p` with bit `j` by the empty path, then bit `j` of the output is
the same in both states. Block `b` assigns the inside `x` of the port; the ranges it assigns lie within a
driver of the port and between its cuts. -/
theorem no_path_same_output_partial {V : Type} {M : Meaning V} {E : TravEnv} {boxed : Str → Str → Bool}
    {ord : Tracker → List (Nat × Nat)} {top marked : List Member} {f : TextLoc → TextLoc}
    (h : Buildable E boxed ord top) {c : Col} {net : NetGraph} (hc : phase1 E top = .ok c)
    (hn : netlist E ord top = .ok net) (hm : Marked boxed E.opts.propCuts f marked top) (hl : combLoops net = [])
    (hr : Regular E (eventsAll boxed E.opts.propCuts marked) c.cuts)
    (hf : Faithful M E (eventsAll boxed E.opts.propCuts marked)) {σ σ' : Vals V}
    (hs : Solves M E (eventsAll boxed E.opts.propCuts marked) σ)
    (hs' : Solves M E (eventsAll boxed E.opts.propCuts marked) σ')
    (hp : ∀ s q, Source E (eventsAll boxed E.opts.propCuts marked) c.cuts s q → σ s q ≠ σ' s q →
      Bare (eventsAll boxed E.opts.propCuts marked) s ∧ E.D.kind s ≠ .modportPort ∧
        ∃ p, LastSupply (eventsAll boxed E.opts.propCuts marked) s q p) {b : Deferred}
    (hb : b ∈ blocksOf (eventsAll boxed E.opts.propCuts marked)) (hk : ¬ Clocked b) {x j : Nat}
    (hw : ∃ w ∈ allWrites b.stmt, Hits true x j w) {p : PortDecl}
    (hpo : .port p ∈ eventsAll boxed E.opts.propCuts marked) (hx : E.D.port x = some p.sym) {lo hi : Int}
    (hsp : Spans E c.cuts p x lo hi)
    (hin : ∀ w ∈ allWrites b.stmt, w.sym = x → InRng w.bounds j → lo ≤ w.bounds.lower ∧ w.bounds.upper ≤ hi)
    (hno : ∀ (s q n m : Nat) p', LastSupply (eventsAll boxed E.opts.propCuts marked) s q p' → σ s q ≠ σ' s q →
      PortNode E.D net p' q n → PortNode E.D net p j m → findComb net n m = some []) : σ x j = σ' x j := by
  obtain ⟨c', net', k1, k2, k3, k4, k5, k6⟩ := marked_built h hc hn hm hl
  obtain ⟨s'', hw'⟩ := built_of k1 k2 k4
  have hj := edges_justified k1.design k1.visits k4
  have hj' := edges_justified h.design h.visits hn
  refine no_path_no_influence_partial h hc hn hm hl k4 hr hf hs hs' hp hb hk hw ?_
  intro s q n p' loc m a1 a2 a3 a4 a5 a6 hreach
  obtain ⟨e, e1, e2, e3, k, e4, e5, e6, _⟩ := leave_port hw' hb a4 hin hpo hx (k3 ▸ hsp)
  subst k5
  have : k = m := text_unique k1 k4 hm.distinct e4 a5 ((e6 hk).trans a6.symm) (by rw [a6]; exact .inl rfl)
  subst this
  have hen := (hw'.walk.eff.fine.ok.vars p.sym e e1).1
  have hdat : net'.data e.val = .port (E.D.ref x).name (E.D.ref x).path (E.D.ref x).loc p.dir ⟨e.lo, e.hi⟩ := by
    rw [hw'.early.data _ hen, (port_at hw'.walk hpo).2.1 x hsp.1 e e1]; rfl
  have hstep : CombStep (moveNet f net') k e.val :=
    comb_move ⟨(step_iff_joined hj _ _).2 e5, by rw [NetGraph.kind, hdat]; simp [NodeData.kind]⟩
  have hpn : PortNode E.D (moveNet f net') p j e.val := by
    refine ⟨hw'.early.nodes _ hen, x, ⟨e.lo, e.hi⟩, hsp.1, (inRng_iff _ _).2 ?_, ?_⟩
    · simp only [BitRange.lower, BitRange.upper]; omega
    · show moveData f (net'.data e.val) = _
      rw [hdat]; rfl
  have hq := hno s q n e.val p' a1 a2 a3 hpn
  have hne : n ≠ e.val := by
    intro he
    subst he
    exact (loops_cover_cycles_partial _ hj'.1).2.1 hl _ a3.1 ⟨k, hreach, hstep⟩
  obtain ⟨path, g1, _, g3⟩ := comb_path_answers h.design h.visits hn a3.1 hne
  rw [hq] at g1
  cases g1
  exact g3 rfl (hreach.tail hstep)

/-! ### Concrete cases -/

/-- Everything a statement reads. -/
def readsOf : Stmt → List Ref
  | .reads rs => rs
  | .assign _ _ (.legacy notes) => (notes.filter fun x => !x.write).map (·.ref)
  | .assign _ _ (.aligned segs) => segs.flatMap fun g => g.rhs.flatMap fun
    | .lsp r => [r]
    | .opaque rs => rs
    | _ => []
  | .seq s t | .choose _ s t => readsOf s ++ readsOf t
  | _ => []

theorem asgReads_in {loc l : TextLoc} {b : Bool} {a : Asg} {r : Ref} (h : AsgReads loc a l r) :
    r ∈ readsOf (.assign loc b a) := by
  cases h with
  | note h1 h2 => exact List.mem_map.2 ⟨_, List.mem_filter.2 ⟨h1, rfl⟩, rfl⟩
  | seg h1 h2 h3 =>
    refine List.mem_flatMap.2 ⟨_, h1, List.mem_flatMap.2 ⟨_, h2, ?_⟩⟩
    cases h3 with
    | lsp => exact List.mem_singleton.2 rfl
    | inside h _ => exact h

theorem use_in {P Q : List Wr → Prop} {st : Stmt} {who : NodeData} {r : Ref} (h : Use P st who r Q) :
    r ∈ readsOf st := by
  induction h with
  | @note _ loc b _ _ h1 h2 => exact asgReads_in (loc := loc) (b := b) (.note h1 h2)
  | @seg _ loc b _ _ _ _ h1 h2 h3 => exact asgReads_in (loc := loc) (b := b) (.seg h1 h2 h3)
  | cond h _ => simp [readsOf, h]
  | left _ ih => exact List.mem_append_left _ ih
  | right _ ih => exact List.mem_append_right _ ih
  | first _ ih => exact List.mem_append_left _ ih
  | second _ ih => exact List.mem_append_right _ ih

/-- A block that reads no signal it writes is settled. -/
theorem settled_apart {st : Stmt} (h0 : ∀ r ∈ readsOf st, 0 ≤ r.bounds.lower)
    (h : ∀ r ∈ readsOf st, ∀ w ∈ allWrites st, w.sym ≠ r.sym) : Settled st := by
  intro who r Q hu p hp
  have hr := use_in hu
  have h1 := h0 r hr
  have h2 := (inRng_iff _ _).1 hp
  refine ⟨by omega, .inl fun tr ht w hw hh => ?_⟩
  obtain ⟨u, v, g1, rfl, g3⟩ := use_paths hu tr ht
  cases g1
  exact h r hr w (g3 w hw) hh.2.1

theorem fits_apart {W : List Wr} {r : Ref} (h : ∀ w ∈ W, w.sym ≠ r.sym) : ReadFits W r.sym r.bounds :=
  .inl fun w hw hs _ => absurd hs (h w hw)

/-- An assignment with one segment that reads no signal it writes. -/
theorem comb_single {W : List Wr} {loc : TextLoc} {g : DSeg}
    (h : ∀ r ∈ readsOf (.assign loc true (.aligned [g])), ∀ w ∈ W, w.sym ≠ r.sym) :
    Comb W (.assign loc true (.aligned [g])) := by
  refine .assign ?_ fun l r hr => fits_apart (h r (asgReads_in hr))
  intro pre g' post e x _ r _
  obtain ⟨rfl, _, rfl⟩ := single_split e
  exact ⟨by simp [Apart, asgWrites], by simp [Apart, asgWrites]⟩

/-! The design of the examples:
```
module t(input [7:0] a, c, output [7:0] y, w);
  always_comb
    if (c)                // line 1
      t = a;              // line 2
    else
      t = 0;              // line 3
  assign y = t;           // line 4
  assign w = c;           // line 5
endmodule
```
The insides of the ports are the signals 0, 3, 1 and 4, `t` is signal 2. -/

def ifB1 : Deferred := .procedural .alwaysComb .other (.seq (.branch false (ln 1)) (.seq (.reads [dsRef 3])
  (.choose true (.assign (ln 2) true (.aligned [⟨[dsRef 2], [.lsp (dsRef 0)], ln 2⟩]))
    (.assign (ln 3) true (.aligned [⟨[dsRef 2], [.constant [] 8 (ln 3)], ln 3⟩])))))
def ifB2 : Deferred := .continuous (ln 4) (.aligned [⟨[dsRef 1], [.lsp (dsRef 2)], ln 4⟩])
def ifB3 : Deferred := .continuous (ln 5) (.aligned [⟨[dsRef 4], [.lsp (dsRef 3)], ln 5⟩])

def ifTop : List Member := [.inst false ['t'] ['t'] [.port (hdIn 20 0), .port (hdIn 22 3), .port (hdOut 21 1),
  .port (hdOut 23 4), .block ifB1, .block ifB2, .block ifB3] []]

def ifEvents : List Event := [.port (hdIn 20 0), .port (hdIn 22 3), .port (hdOut 21 1), .port (hdOut 23 4),
  .block ifB1, .block ifB2, .block ifB3]

def ifCol : Col := (phase1 hdE ifTop).toOption.getD {}
def ifNet : NetGraph := (netlist hdE Tracker.slots ifTop).toOption.getD {}

theorem if_events : eventsAll hdBoxed hdE.opts.propCuts ifTop = ifEvents := by
  simp [ifTop, eventsAll, events, hdBoxed, ifEvents]

theorem if_blocks : blocksOf ifEvents = [ifB1, ifB2, ifB3] := rfl

theorem if_elab : Elaborated hdE hdBoxed ifTop where
  boxes := by simp [DecidesBoxes, Boxed, hdBoxed, hdE]
  ok := by
    rw [if_events]
    simp [ifEvents, EventOk, hdIn, hdOut, PortDriver.hi, hdE, hdD]
  once := by
    rw [if_events]
    show [20, 22, 21, 23].Nodup
    decide

theorem if_phase1 : phase1 hdE ifTop = .ok ifCol := by
  obtain ⟨c, h, _⟩ := phase1_total_partial if_elab
  rw [ifCol, h]; rfl

theorem if_build : Buildable hdE hdBoxed Tracker.slots ifTop where
  design := if_elab
  plain := by
    intro c hc
    rw [if_phase1] at hc
    exact Except.ok.inj hc ▸
      plain_of_two (lo := 0) (mid := 3) (hi := 7) (by decide) (by decide) (by decide +kernel) (by decide) (by decide)
  live := by
    rw [if_events, if_blocks]
    intro b hb; simp at hb; rcases hb with rfl | rfl | rfl <;> decide
  events := by
    rw [if_events, if_blocks]
    intro b hb; simp at hb
    rcases hb with rfl | rfl | rfl
    · simp [ifB1, PlainEvents, SignalEventsOnly, eventsOf, PlainClocks]
    · trivial
    · trivial
  visits := fun _ => List.Perm.refl _
  ports := by
    rw [if_events, if_blocks]
    have : ∀ b ∈ [ifB1, ifB2, ifB3], ∀ w ∈ allWrites b.stmt, w.sym < 20 := by
      intro b hb; simp at hb; rcases hb with rfl | rfl | rfl <;> decide
    intro p hp b hb w hw
    have := this b hb w hw
    simp [ifEvents, hdIn, hdOut] at hp
    rcases hp with rfl | rfl | rfl | rfl <;> simp only <;> omega

theorem if_net : netlist hdE Tracker.slots ifTop = .ok ifNet := by
  obtain ⟨_, _, net, _, _, _, _, h, _⟩ := netlist_total_partial if_build
  rw [ifNet, h]; rfl

theorem if_marked : Marked hdBoxed hdE.opts.propCuts id ifTop ifTop :=
  ⟨rfl, distinct_of_nodup (by rw [if_events]; decide +kernel)⟩

theorem if_clocked {b : Deferred} (hb : b ∈ [ifB1, ifB2, ifB3]) : ¬ Clocked b := by
  rintro ⟨⟨v, hv, _⟩, _⟩
  simp at hb
  rcases hb with rfl | rfl | rfl <;> cases hv

theorem if_bare {y : Nat} (h : y < 20) : Bare ifEvents y := by
  refine ⟨fun ev hev hy => ?_, fun b hb hc => absurd hc (if_clocked hb)⟩
  simp [ifEvents] at hev
  rcases hev with rfl | rfl | rfl | rfl | rfl | rfl | rfl <;> simp [declares, hdIn, hdOut] at hy <;> omega

theorem if_no_conn {p : PortDecl} {k : Conn} : ¬ Before ifEvents p k := by
  intro h
  have := (before_mem h).2
  simp [ifEvents] at this

theorem if_no_inlet {y q x j : Nat} : ¬ Inlet hdE ifEvents y q x j := by
  rintro ⟨p, k, _, h, _⟩
  exact if_no_conn h.1

theorem if_no_up {prev : Option Conn} {x y j q : Nat} {lo hi : Int} {cuts : CutReg} :
    ¬ Up hdE ifEvents cuts prev x lo hi j y q := by
  intro h
  cases h with
  | one h => obtain ⟨p, _, h, _⟩ := h; exact if_no_conn h.1
  | more h _ => obtain ⟨p, _, h, _⟩ := h; exact if_no_conn h.1

theorem if_assigned {y q : Nat} {cuts : CutReg} (h : Assigned hdE ifEvents cuts y q) : y = 1 ∨ y = 2 ∨ y = 4 := by
  obtain ⟨b, hb, _, x, j, ⟨w, hw, _, hx, _⟩, h⟩ := h
  rcases h with ⟨_, rfl, _⟩ | ⟨_, _, _, h⟩
  · have : ∀ b ∈ [ifB1, ifB2, ifB3], ∀ w ∈ allWrites b.stmt, w.sym = 1 ∨ w.sym = 2 ∨ w.sym = 4 := by
      intro b hb; simp at hb; rcases hb with rfl | rfl | rfl <;> decide
    rw [← hx]; exact this b hb w hw
  · exact absurd h if_no_up

theorem if_regular (cuts : CutReg) : Regular hdE ifEvents cuts where
  comb := by
    intro b hb _
    rw [if_blocks] at hb; simp at hb
    rcases hb with rfl | rfl | rfl
    · refine .cond (.choose .assign .assign) (.choose (comb_single (by decide)) (comb_single (by decide))) ?_
      intro r hr _
      simp at hr; subst hr
      exact fits_apart (by decide)
    · exact comb_single (by decide)
    · exact comb_single (by decide)
  settled := by
    intro b hb _
    rw [if_blocks] at hb; simp at hb
    rcases hb with rfl | rfl | rfl <;> exact settled_apart (by decide) (by decide)
  complete := by
    intro b hb _ x p ⟨w, hw, hh⟩ tr ht
    rw [if_blocks] at hb; simp at hb
    have key : ∀ v ∈ tr, v.blocking = true ∧ v.sym = w.sym ∧ v.bounds = w.bounds := by
      intro v hv
      have := runs_writes ht v hv
      rcases hb with rfl | rfl | rfl <;>
        simp [ifB1, ifB2, ifB3, Deferred.stmt, allWrites, asgWrites, dsRef] at hw this
      · rcases hw with rfl | rfl <;> rcases this with rfl | rfl <;> simp
      · subst hw this; simp
      · subst hw this; simp
    have hne : tr ≠ [] := by
      rcases hb with rfl | rfl | rfl
      · cases ht with
        | seq h1 h2 =>
          cases h1
          cases h2 with
          | seq h1 h2 =>
            cases h1
            cases h2 with
            | first h => cases h; simp [asgWrites]
            | second h => cases h; simp [asgWrites]
      · cases ht; simp [asgWrites]
      · cases ht; simp [asgWrites]
    obtain ⟨v, l, rfl⟩ := List.exists_cons_of_ne_nil hne
    obtain ⟨k1, k2, k3⟩ := key v (by simp)
    exact ⟨v, by simp, k1, k2.trans hh.2.1, k3 ▸ hh.2.2⟩
  assigned := by
    intro y q h
    have := if_assigned h
    exact ⟨if_bare (by omega), by simp [hdE, hdD]⟩
  inlets := fun y q x j h => absurd h if_no_inlet
  outlets := fun p k e h => absurd h if_no_conn
  nested := ⟨fun _ => 0, fun y q x j h => absurd h if_no_inlet⟩

/-- What the lines compute. -/
def ifM : Meaning Bool where
  value := fun loc ρ _ p => decide (0 ≤ p ∧ p ≤ 7) && if loc.line = 2 then ρ 0 p else if loc.line = 4 then ρ 2 p
    else if loc.line = 5 then ρ 3 p else false
  pick := fun _ _ ρ _ => ρ 3 0
  feed := fun _ _ _ => false

/-- The state in which all bits of `a` are `v`, and those of `c` are 1. -/
def ifVals (v : Bool) : Vals Bool := fun x p =>
  decide (0 ≤ p ∧ p ≤ 7) && if x = 3 ∨ x = 4 then true else decide (x < 3) && v

theorem eight {p : Int} : InRng ⟨0, 7⟩ p ↔ 0 ≤ p ∧ p ≤ 7 := inRng_iff _ _

/-- An expression that is a signal looks at the signal. -/
theorem looks_lsp {loc : TextLoc} {segs : List DSeg} {g : DSeg} {n : Nat} {F : Vals Bool → Nat → Int → Bool}
    (hg : g ∈ segs) (hx : RSrc.lsp (dsRef n) ∈ g.rhs) (hF : ∀ ρ x p, F ρ x p = (decide (0 ≤ p ∧ p ≤ 7) && ρ n p)) :
    LooksAt (BitsIn (AsgReads loc (.aligned segs) g.loc)) F := by
  intro ρ ρ' h
  funext x p
  rw [hF, hF]
  by_cases hp : 0 ≤ p ∧ p ≤ 7
  · rw [h n p ⟨dsRef n, .seg hg hx (.lsp _), rfl, eight.2 hp⟩]
  · simp [hp]

theorem if_faithful : Faithful ifM hdE ifEvents where
  blocks := by
    intro b hb _
    rw [if_blocks] at hb; simp at hb
    rcases hb with rfl | rfl | rfl
    · refine ⟨trivial, ⟨trivial, ⟨?_, ?_⟩, by simp⟩, ?_⟩
      · intro l hl
        simp [asgLocs] at hl; subst hl
        exact looks_lsp (g := ⟨[dsRef 2], [.lsp (dsRef 0)], ln 2⟩) (n := 0) (by simp) (by simp) (fun _ _ _ => by simp [ifM, ln])
      · intro l hl
        simp [asgLocs] at hl; subst hl
        intro _ _ _; rfl
      · intro k loc rs t' h1 h2
        simp at h1 h2
        obtain ⟨rfl, rfl⟩ := h1
        obtain ⟨rfl, rfl⟩ := h2
        intro ρ ρ' h
        funext n
        exact h 3 0 ⟨dsRef 3, ⟨by simp, rfl⟩, rfl, eight.2 (by decide)⟩
    · intro l hl
      simp [asgLocs] at hl; subst hl
      exact looks_lsp (g := ⟨[dsRef 1], [.lsp (dsRef 2)], ln 4⟩) (n := 2) (by simp) (by simp) (fun _ _ _ => by simp [ifM, ln])
    · intro l hl
      simp [asgLocs] at hl; subst hl
      exact looks_lsp (g := ⟨[dsRef 4], [.lsp (dsRef 3)], ln 5⟩) (n := 3) (by simp) (by simp) (fun _ _ _ => by simp [ifM, ln])
  inlets := fun x j ρ ρ' _ => rfl

theorem if_solves (v : Bool) : Solves ifM hdE ifEvents (ifVals v) where
  blocks := by
    intro b hb _ x p ⟨w, hw, hh⟩
    obtain ⟨_, h1, h2⟩ := hh
    rw [if_blocks] at hb; simp at hb
    rcases hb with rfl | rfl | rfl <;> simp [ifB1, ifB2, ifB3, Deferred.stmt, allWrites, asgWrites, dsRef] at hw
    · have h3 : 2 = x ∧ 0 ≤ p ∧ p ≤ 7 := by rcases hw with rfl | rfl <;> exact ⟨h1, eight.1 h2⟩
      obtain ⟨rfl, h3⟩ := h3
      simp [ifB1, Deferred.stmt, run, enter, store, asgWrites, dsRef, ifM, ifVals, BitRange.lower, BitRange.upper, ln, h3]
    · subst hw
      have h3 : 1 = x ∧ 0 ≤ p ∧ p ≤ 7 := ⟨h1, eight.1 h2⟩
      obtain ⟨rfl, h3⟩ := h3
      simp [ifB2, Deferred.stmt, run, enter, store, asgWrites, dsRef, ifM, ifVals, BitRange.lower, BitRange.upper, ln, h3]
    · subst hw
      have h3 : 4 = x ∧ 0 ≤ p ∧ p ≤ 7 := ⟨h1, eight.1 h2⟩
      obtain ⟨rfl, h3⟩ := h3
      simp [ifB3, Deferred.stmt, run, enter, store, asgWrites, dsRef, ifM, ifVals, BitRange.lower, BitRange.upper, ln, h3]
  inlets := fun y q x j h => absurd h if_no_inlet
  outlets := by
    rintro x j y q ⟨p, k, e, _, h, _⟩
    exact absurd h.1 if_no_conn

theorem if_in {s q : Nat} {p : PortDecl} (h : LastSupply ifEvents s q p) (hs : s ≠ 3) : s = 0 ∧ p = hdIn 20 0 := by
  obtain ⟨pre, post, h1, h2, _⟩ := h
  have hm : Event.port p ∈ ifEvents := h1 ▸ by simp
  simp [ifEvents] at hm
  obtain ⟨a1, d, a2, a3, _⟩ := h2
  rcases hm with rfl | rfl | rfl | rfl <;> simp [hdIn, hdOut] at a1 a2 <;> subst a2
  · exact ⟨a1.symm, rfl⟩
  · omega
  · cases a3
  · cases a3

/-- The states differ, among the sources, in bits of port `a` only. -/
theorem if_sources {s q : Nat} {cuts : CutReg} (h : Source hdE ifEvents cuts s q)
    (hne : ifVals false s q ≠ ifVals true s q) : s = 0 ∧ q ≤ 7 := by
  have h0 : s < 3 ∧ q ≤ 7 := by
    have : ¬ ¬ (s < 3 ∧ q ≤ 7) := by
      intro hc
      apply hne
      unfold ifVals
      by_cases h1 : s < 3
      · rw [decide_eq_false (by omega : ¬ (0 ≤ (q : Int) ∧ (q : Int) ≤ 7))]
        rfl
      · simp [h1]
    omega
  have g1 : s ≠ 1 := by
    rintro rfl
    exact h.1 ⟨ifB2, by rw [if_blocks]; simp, if_clocked (by simp), 1, q,
      ⟨⟨1, ⟨0, 7⟩, ln 4, true⟩, by decide, rfl, rfl, eight.2 (by omega)⟩, .inl ⟨if_clocked (by simp), rfl, rfl⟩⟩
  have g2 : s ≠ 2 := by
    rintro rfl
    exact h.1 ⟨ifB1, by rw [if_blocks]; simp, if_clocked (by simp), 2, q,
      ⟨⟨2, ⟨0, 7⟩, ln 2, true⟩, by decide, rfl, rfl, eight.2 (by omega)⟩, .inl ⟨if_clocked (by simp), rfl, rfl⟩⟩
  omega

theorem if_loops : combLoops ifNet = [] := by decide +kernel

/-- The name of a port's node. -/
def portName : NodeData → Option Str
  | .port name .. => some name
  | _ => none

/-- Output `y` differs between the states, so there is a path. -/
example : ∃ net', netlist hdE Tracker.slots ifTop = .ok net' ∧ ifNet = moveNet id net' ∧
    ∃ loc, Leaves ifB2.stmt 1 0 loc ∧ ∃ s q z i who,
      Source hdE (eventsAll hdBoxed hdE.opts.propCuts ifTop) ifCol.cuts s q ∧ ifVals false s q ≠ ifVals true s q ∧
      Brings hdE (eventsAll hdBoxed hdE.opts.propCuts ifTop) s q z i ∧
      Fetches (eventsAll hdBoxed hdE.opts.propCuts ifTop) z i who ∧
      ∃ m ∈ ifNet.g.nodes, ∃ n ∈ ifNet.g.nodes, net'.data m = who ∧ net'.data n = .assignment loc ∧
        Reach (CombStep ifNet) m n :=
  influence_path_partial (M := ifM) if_build if_phase1 if_net if_marked if_loops (by rw [if_events]; exact if_regular _)
    (by rw [if_events]; exact if_faithful) (by rw [if_events]; exact if_solves false)
    (by rw [if_events]; exact if_solves true) (b := ifB2) (by rw [if_events, if_blocks]; simp) (if_clocked (by simp))
    ⟨⟨1, ⟨0, 7⟩, ln 4, true⟩, by decide, rfl, rfl, eight.2 (by decide)⟩ (by decide)

theorem if_inputs : ∀ s q, Source hdE (eventsAll hdBoxed hdE.opts.propCuts ifTop) ifCol.cuts s q →
    ifVals false s q ≠ ifVals true s q → Bare (eventsAll hdBoxed hdE.opts.propCuts ifTop) s ∧
      hdE.D.kind s ≠ .modportPort ∧ ∃ p, LastSupply (eventsAll hdBoxed hdE.opts.propCuts ifTop) s q p := by
  rw [if_events]
  intro s q h hne
  obtain ⟨rfl, hq⟩ := if_sources h hne
  refine ⟨if_bare (by decide), by simp [hdE, hdD], hdIn 20 0, [], _, rfl, ⟨rfl, ⟨0, 7, true⟩, by simp [hdIn], rfl, by simp, hq⟩, ?_⟩
  intro p hp hs
  simp at hp
  rcases hp with rfl | rfl | rfl <;> simp [Supplies, hdIn, hdOut] at hs

/-- There is no path from port `a` to port `w`, so `w` is the same in both states. -/
example : ifVals false 4 0 = ifVals true 4 0 :=
  no_path_same_output_partial (M := ifM) if_build if_phase1 if_net if_marked if_loops
    (by rw [if_events]; exact if_regular _) (by rw [if_events]; exact if_faithful)
    (by rw [if_events]; exact if_solves false) (by rw [if_events]; exact if_solves true) if_inputs (b := ifB3)
    (by rw [if_events, if_blocks]; simp) (if_clocked (by simp))
    ⟨⟨4, ⟨0, 7⟩, ln 5, true⟩, by decide, rfl, rfl, eight.2 (by decide)⟩ (p := hdOut 23 4)
    (by rw [if_events]; simp [ifEvents]) rfl (lo := 0) (hi := 7)
    ⟨rfl, by decide, ⟨⟨0, 7, false⟩, by simp [hdOut], by decide, by decide⟩,
      fun _ l hl => by rw [(by decide +kernel : ifCol.cuts 4 = none)] at hl; cases hl⟩
    (by intro w hw _ _; simp [ifB3, Deferred.stmt, allWrites, asgWrites, dsRef] at hw; subst hw; decide)
    (by
      rw [if_events]
      intro s q n m p' h1 h2 h3 h4
      have hs : s ≠ 3 := by rintro rfl; exact h2 rfl
      obtain ⟨rfl, rfl⟩ := if_in h1 hs
      obtain ⟨n1, x, b, hx, _, n2⟩ := h3
      obtain ⟨m1, y, b', hy, _, m2⟩ := h4
      cases hx; cases hy
      exact (by decide +kernel : ∀ n ∈ ifNet.g.nodes, ∀ m ∈ ifNet.g.nodes, portName (ifNet.data n) = some ['a'] →
        portName (ifNet.data m) = some ['e'] → findComb ifNet n m = some []) n n1 m m1 (by rw [n2]; rfl) (by rw [m2]; rfl))

/-! ### Influences the netlist lacks

The designs have the ports of the one above and a single block. -/

def loTop (b : Deferred) : List Member := [.inst false ['t'] ['t'] [.port (hdIn 20 0), .port (hdIn 22 3),
  .port (hdOut 21 1), .port (hdOut 23 4), .block b] []]

def loEvents (b : Deferred) : List Event :=
  [.port (hdIn 20 0), .port (hdIn 22 3), .port (hdOut 21 1), .port (hdOut 23 4), .block b]

def loNet (b : Deferred) : NetGraph := (netlist hdE Tracker.slots (loTop b)).toOption.getD {}

theorem lo_events (b : Deferred) : eventsAll hdBoxed hdE.opts.propCuts (loTop b) = loEvents b := by
  simp [loTop, eventsAll, events, hdBoxed, loEvents]

theorem lo_elab (b : Deferred) : Elaborated hdE hdBoxed (loTop b) where
  boxes := by simp [DecidesBoxes, Boxed, hdBoxed, hdE]
  ok := by
    rw [lo_events]
    simp [loEvents, EventOk, hdIn, hdOut, PortDriver.hi, hdE, hdD]
  once := by
    rw [lo_events]
    show [20, 22, 21, 23].Nodup
    decide

theorem lo_no_conn {b : Deferred} {p : PortDecl} {k : Conn} : ¬ Before (loEvents b) p k := by
  intro h
  have := (before_mem h).2
  simp [loEvents] at this

/-- ```
always_comb
  if (c) begin            // line 1
    e = a;                // line 2
    b = a;                // line 3
  end else begin
    e = 0;                // line 4
    b = 0;                // line 5
  end
``` -/
def secondB : Deferred := .procedural .alwaysComb .other (.seq (.branch false (ln 1)) (.seq (.reads [dsRef 3])
  (.choose true
    (.seq (.assign (ln 2) true (.aligned [⟨[dsRef 4], [.lsp (dsRef 0)], ln 2⟩]))
      (.assign (ln 3) true (.aligned [⟨[dsRef 1], [.lsp (dsRef 0)], ln 3⟩])))
    (.seq (.assign (ln 4) true (.aligned [⟨[dsRef 4], [.constant [] 8 (ln 4)], ln 4⟩]))
      (.assign (ln 5) true (.aligned [⟨[dsRef 1], [.constant [] 8 (ln 5)], ln 5⟩]))))))

/-- ```
always_comb begin
  p = a;                  // line 1
  q = c;                  // line 2
  {p, q} = {q, p};        // lines 3 (q) and 4 (p)
  b = p;                  // line 5
end
```
`p` is signal 2, `q` is signal 9. The two segments of the third assignment have places of their own. -/
def swapB : Deferred := .procedural .alwaysComb .other
  (.seq (.assign (ln 1) true (.aligned [⟨[dsRef 2], [.lsp (dsRef 0)], ln 1⟩]))
    (.seq (.assign (ln 2) true (.aligned [⟨[dsRef 9], [.lsp (dsRef 3)], ln 2⟩]))
      (.seq (.assign (ln 3) true (.aligned [⟨[dsRef 9], [.lsp (dsRef 2)], ln 3⟩, ⟨[dsRef 2], [.lsp (dsRef 9)], ln 4⟩]))
        (.assign (ln 5) true (.aligned [⟨[dsRef 1], [.lsp (dsRef 2)], ln 5⟩])))))

/-- An influence of input `c` on output `b` that the netlist does not show: two stable states of the
design that differ, among the sources, in bits of `c` only, and in a bit of `b`, while no loop is
reported and no query for a path from `c` to `b` finds one. -/
def Lost (b : Deferred) : Prop :=
  Buildable hdE hdBoxed Tracker.slots (loTop b) ∧
  Distinct (eventsAll hdBoxed hdE.opts.propCuts (loTop b)) ∧
  ∃ c net, phase1 hdE (loTop b) = .ok c ∧ netlist hdE Tracker.slots (loTop b) = .ok net ∧ combLoops net = [] ∧
  ∃ (M : Meaning Bool) (σ σ' : Vals Bool), Faithful M hdE (eventsAll hdBoxed hdE.opts.propCuts (loTop b)) ∧
    Solves M hdE (eventsAll hdBoxed hdE.opts.propCuts (loTop b)) σ ∧
    Solves M hdE (eventsAll hdBoxed hdE.opts.propCuts (loTop b)) σ' ∧
    (∀ s q, Source hdE (eventsAll hdBoxed hdE.opts.propCuts (loTop b)) c.cuts s q → σ s q ≠ σ' s q →
      LastSupply (eventsAll hdBoxed hdE.opts.propCuts (loTop b)) s q (hdIn 22 3)) ∧
    σ 1 0 ≠ σ' 1 0 ∧
    ∀ q n m, PortNode hdE.D net (hdIn 22 3) q n → PortNode hdE.D net (hdOut 21 1) 0 m → findComb net n m = some []

def loCol (b : Deferred) : Col := (phase1 hdE (loTop b)).toOption.getD {}

theorem lo_phase1 (b : Deferred) : phase1 hdE (loTop b) = .ok (loCol b) := by
  obtain ⟨c, h, _⟩ := phase1_total_partial (lo_elab b)
  rw [loCol, h]; rfl

theorem lo_net {b : Deferred} (hb : Buildable hdE hdBoxed Tracker.slots (loTop b)) :
    netlist hdE Tracker.slots (loTop b) = .ok (loNet b) := by
  obtain ⟨_, _, net, _, _, _, _, h, _⟩ := netlist_total_partial hb
  rw [loNet, h]; rfl

theorem lo_supply {b : Deferred} {q : Nat} (hq : q ≤ 7) : LastSupply (loEvents b) 3 q (hdIn 22 3) := by
  refine ⟨[.port (hdIn 20 0)], _, rfl, ⟨rfl, ⟨0, 7, true⟩, by simp [hdIn], rfl, by simp, hq⟩, ?_⟩
  intro p hp hs
  simp at hp
  rcases hp with rfl | rfl <;> simp [Supplies, hdOut] at hs

theorem lo_block {b b' : Deferred} (h : b' ∈ blocksOf (loEvents b)) : b' = b := by
  simpa [loEvents, blocksOf] using h

theorem lo_build {b : Deferred} {st : Stmt} (hb : b = .procedural .alwaysComb .other st)
    (hp : ∀ w ∈ allWrites b.stmt, w.sym < 20) (hl : live b.stmt = true)
    (hpl : ∀ w ∈ designWrites (loCol b).hist (loCol b).blocks, w.bounds = ⟨0, 7⟩) :
    Buildable hdE hdBoxed Tracker.slots (loTop b) where
  design := lo_elab b
  plain := by
    intro c hc
    rw [lo_phase1] at hc
    exact Except.ok.inj hc ▸
      plain_of_two (lo := 0) (mid := 3) (hi := 7) (by decide) (by decide) (fun w hw => .inr (.inr (hpl w hw)))
        (by decide) (by decide)
  live := by
    rw [lo_events]
    intro b' hb'
    exact lo_block hb' ▸ hl
  events := by
    rw [lo_events]
    intro b' hb'
    rw [lo_block hb', hb]
    simp [PlainEvents, SignalEventsOnly, eventsOf, PlainClocks]
  visits := fun _ => List.Perm.refl _
  ports := by
    rw [lo_events]
    intro p hp' b' hb' w hw
    have := hp w (lo_block hb' ▸ hw)
    simp [loEvents, hdIn, hdOut] at hp'
    rcases hp' with rfl | rfl | rfl | rfl <;> simp only <;> omega

/-- Line `l` copies the signal `src l`, or is 0; conditions are bit 0 of `c`. -/
def loM (src : Nat → Option Nat) : Meaning Bool where
  value := fun loc ρ _ p => decide (0 ≤ p ∧ p ≤ 7) && match src loc.line with | some n => ρ n p | none => false
  pick := fun _ _ ρ _ => ρ 3 0
  feed := fun _ _ _ => false

/-- The state in which all bits of a signal are the same. -/
def loVals (v : Nat → Bool) : Vals Bool := fun x p => decide (0 ≤ p ∧ p ≤ 7) && v x

theorem lo_vals {v : Nat → Bool} {x : Nat} {p : Int} (hp : 0 ≤ p ∧ p ≤ 7) : loVals v x p = v x := by
  simp [loVals, hp]

theorem looks_line {loc : TextLoc} {segs : List DSeg} {g : DSeg} {n : Nat} {src : Nat → Option Nat}
    (hg : g ∈ segs) (hx : RSrc.lsp (dsRef n) ∈ g.rhs) (hF : src g.loc.line = some n) :
    LooksAt (BitsIn (AsgReads loc (.aligned segs) g.loc)) ((loM src).value g.loc) :=
  looks_lsp hg hx fun _ _ _ => by simp [loM, hF]

/-- Enough for a lost influence. -/
theorem lost_of {b : Deferred} {st : Stmt} (hb : b = .procedural .alwaysComb .other st)
    (hp : ∀ w ∈ allWrites b.stmt, w.sym < 20) (hl : live b.stmt = true)
    (hpl : ∀ w ∈ designWrites (loCol b).hist (loCol b).blocks, w.bounds = ⟨0, 7⟩)
    (hd : (textNodes (loEvents b)).Nodup) (hlo : combLoops (loNet b) = [])
    (hno : ∀ n ∈ (loNet b).g.nodes, ∀ m ∈ (loNet b).g.nodes, portName ((loNet b).data n) = some ['d'] →
        portName ((loNet b).data m) = some ['b'] → findComb (loNet b) n m = some [])
    {src : Nat → Option Nat} {v v' : Nat → Bool} (hM : Reflects (loM src) b.stmt)
    (hs : ∀ x p, (∃ w ∈ allWrites b.stmt, Hits true x p w) →
      loVals v x p = run (loM src) b.stmt (fun _ => true) (loVals v) x p)
    (hs' : ∀ x p, (∃ w ∈ allWrites b.stmt, Hits true x p w) →
      loVals v' x p = run (loM src) b.stmt (fun _ => true) (loVals v') x p)
    (hv : ∀ x, v x ≠ v' x → x = 3 ∨ ∃ w ∈ allWrites b.stmt, w.sym = x ∧ w.bounds = ⟨0, 7⟩ ∧ w.blocking = true)
    (hne : v 1 ≠ v' 1) : Lost b := by
  have hB := lo_build hb hp hl hpl
  have hsol : ∀ {v : Nat → Bool}, (∀ x p, (∃ w ∈ allWrites b.stmt, Hits true x p w) →
      loVals v x p = run (loM src) b.stmt (fun _ => true) (loVals v) x p) →
      Solves (loM src) hdE (loEvents b) (loVals v) := fun h => by
    refine ⟨?_, ?_, ?_⟩
    · intro b' hb' _
      rw [lo_block hb']
      exact h
    · rintro y q x j ⟨p, k, _, h, _⟩
      exact absurd h.1 lo_no_conn
    · rintro x j y q ⟨p, k, e, _, h, _⟩
      exact absurd h.1 lo_no_conn
  refine ⟨hB, ?_, loCol b, loNet b, lo_phase1 b, lo_net hB, hlo, loM src, loVals v, loVals v', ?_⟩
  · rw [lo_events]
    exact distinct_of_nodup hd
  rw [lo_events]
  refine ⟨⟨?_, fun _ _ _ _ _ => rfl⟩, hsol hs, hsol hs', ?_, ?_, ?_⟩
  · intro b' hb' _
    rw [lo_block hb']
    exact hM
  · intro s q hsrc hdiff
    have hq : q ≤ 7 := by
      refine Classical.byContradiction fun hc => hdiff ?_
      unfold loVals
      rw [decide_eq_false (by omega : ¬ (0 ≤ (q : Int) ∧ (q : Int) ≤ 7))]
      rfl
    have hvs : v s ≠ v' s := fun e => hdiff (by simp [loVals, e])
    rcases hv s hvs with rfl | ⟨w, w1, w2, w3, w4⟩
    · exact lo_supply hq
    · have hc : ¬ Clocked b := by
        rintro ⟨⟨_, hv, _⟩, _⟩
        rw [hb] at hv
        cases hv
      exact absurd ⟨b, by simp [loEvents, blocksOf], hc, s, q, ⟨w, w1, w4, w2, w3 ▸ eight.2 (by omega)⟩,
        .inl ⟨hc, rfl, rfl⟩⟩ hsrc.1
  · rw [lo_vals (by decide), lo_vals (by decide)]
    exact hne
  · intro q n m h3 h4
    obtain ⟨n1, x, r, hx, _, n2⟩ := h3
    obtain ⟨m1, y, r', hy, _, m2⟩ := h4
    cases hx; cases hy
    exact hno n n1 m m1 (by rw [n2]; rfl) (by rw [m2]; rfl)

def secondSrc : Nat → Option Nat
  | 2 | 3 => some 0
  | _ => none

/-- The values when `a` is 1 and `c` is `v`. -/
def secondV (v : Bool) : Nat → Bool
  | 0 => true
  | 1 | 3 | 4 => v
  | _ => false

theorem second_vals (v : Bool) (x : Nat) (p : Int) (h : ∃ w ∈ allWrites secondB.stmt, Hits true x p w) :
    loVals (secondV v) x p = run (loM secondSrc) secondB.stmt (fun _ => true) (loVals (secondV v)) x p := by
  obtain ⟨w, hw, _, h1, h2⟩ := h
  have h3 : (4 = x ∨ 1 = x) ∧ 0 ≤ p ∧ p ≤ 7 := by
    simp [secondB, Deferred.stmt, allWrites, asgWrites, dsRef] at hw
    rcases hw with rfl | rfl | rfl | rfl <;> exact ⟨by simp_all, eight.1 h2⟩
  obtain ⟨h3, h4⟩ := h3
  rcases h3 with rfl | rfl <;> cases v <;>
    simp [secondB, Deferred.stmt, run, enter, store, asgWrites, dsRef, loM, loVals, secondSrc, secondV, BitRange.lower,
      BitRange.upper, ln, h4]

/-- The condition has no edge to the second assignment of an alternative. -/
theorem influence_lost_second : Lost secondB := by
  refine lost_of (src := secondSrc) (v := secondV false) (v' := secondV true) rfl (by decide) (by decide) (by decide +kernel)
    (by decide +kernel) (by decide +kernel) (by decide +kernel) ?_ (second_vals _) (second_vals _) ?_ (by decide)
  · refine ⟨trivial, ⟨trivial, ⟨⟨?_, ?_, by simp⟩, ⟨?_, ?_, by simp⟩⟩, by simp⟩, ?_⟩
    · intro l hl
      simp [asgLocs] at hl; subst hl
      exact looks_line (g := ⟨[dsRef 4], [.lsp (dsRef 0)], ln 2⟩) (n := 0) (by simp) (by simp) rfl
    · intro l hl
      simp [asgLocs] at hl; subst hl
      exact looks_line (g := ⟨[dsRef 1], [.lsp (dsRef 0)], ln 3⟩) (n := 0) (by simp) (by simp) rfl
    · intro l hl
      simp [asgLocs] at hl; subst hl
      intro _ _ _; rfl
    · intro l hl
      simp [asgLocs] at hl; subst hl
      intro _ _ _; rfl
    · intro k loc rs t' h1 h2
      simp at h1 h2
      obtain ⟨rfl, rfl⟩ := h1
      obtain ⟨rfl, rfl⟩ := h2
      intro ρ ρ' h
      funext n
      exact h 3 0 ⟨dsRef 3, ⟨by simp, rfl⟩, rfl, eight.2 (by decide)⟩
  · intro x hx
    by_cases h1 : x = 1
    · exact .inr ⟨⟨1, ⟨0, 7⟩, ln 3, true⟩, by decide, h1.symm, rfl, rfl⟩
    · by_cases h4 : x = 4
      · exact .inr ⟨⟨4, ⟨0, 7⟩, ln 2, true⟩, by decide, h4.symm, rfl, rfl⟩
      · refine .inl (Classical.byContradiction fun h3 => hx ?_)
        unfold secondV
        split <;> simp_all

def swapSrc : Nat → Option Nat
  | 1 => some 0
  | 2 => some 3
  | 3 => some 2
  | 4 => some 9
  | 5 => some 2
  | _ => none

/-- The values when `a` is 1 and `c` is `v`. -/
def swapV (v : Bool) : Nat → Bool
  | 0 | 9 => true
  | 1 | 2 | 3 => v
  | _ => false

theorem swap_vals (v : Bool) (x : Nat) (p : Int) (h : ∃ w ∈ allWrites swapB.stmt, Hits true x p w) :
    loVals (swapV v) x p = run (loM swapSrc) swapB.stmt (fun _ => true) (loVals (swapV v)) x p := by
  obtain ⟨w, hw, _, h1, h2⟩ := h
  have h3 : (2 = x ∨ 9 = x ∨ 1 = x) ∧ 0 ≤ p ∧ p ≤ 7 := by
    simp [swapB, Deferred.stmt, allWrites, asgWrites, dsRef] at hw
    rcases hw with rfl | rfl | rfl | rfl | rfl <;> exact ⟨by simp_all, eight.1 h2⟩
  obtain ⟨h3, h4⟩ := h3
  rcases h3 with rfl | rfl | rfl <;> cases v <;>
    simp [swapB, Deferred.stmt, run, enter, store, asgWrites, dsRef, loM, loVals, swapSrc, swapV, BitRange.lower,
      BitRange.upper, ln, h4, (by decide : min 0 7 = (0 : Int)), (by decide : max 0 7 = (7 : Int))]

/-- The segments of an assignment are handled one after the other: the second one reads what the first
one has written. -/
theorem influence_lost_swap : Lost swapB := by
  refine lost_of (src := swapSrc) (v := swapV false) (v' := swapV true) rfl (by decide) (by decide) (by decide +kernel)
    (by decide +kernel) (by decide +kernel) (by decide +kernel) ?_ (swap_vals _) (swap_vals _) ?_ (by decide)
  · refine ⟨?_, ⟨?_, ⟨?_, ?_, by simp⟩, by simp⟩, by simp⟩ <;> intro l hl <;> simp [asgLocs] at hl
    · subst hl
      exact looks_line (g := ⟨[dsRef 2], [.lsp (dsRef 0)], ln 1⟩) (n := 0) (by simp) (by simp) rfl
    · subst hl
      exact looks_line (g := ⟨[dsRef 9], [.lsp (dsRef 3)], ln 2⟩) (n := 3) (by simp) (by simp) rfl
    · rcases hl with rfl | rfl
      · exact looks_line (g := ⟨[dsRef 9], [.lsp (dsRef 2)], ln 3⟩) (n := 2) (by simp) (by simp) rfl
      · exact looks_line (g := ⟨[dsRef 2], [.lsp (dsRef 9)], ln 4⟩) (n := 9) (by simp) (by simp) rfl
    · subst hl
      exact looks_line (g := ⟨[dsRef 1], [.lsp (dsRef 2)], ln 5⟩) (n := 2) (by simp) (by simp) rfl
  · intro x hx
    by_cases h1 : x = 1
    · exact .inr ⟨⟨1, ⟨0, 7⟩, ln 5, true⟩, by decide, h1.symm, rfl, rfl⟩
    · by_cases h4 : x = 2
      · exact .inr ⟨⟨2, ⟨0, 7⟩, ln 1, true⟩, by decide, h4.symm, rfl, rfl⟩
      · refine .inl (Classical.byContradiction fun h3 => hx ?_)
        unfold swapV
        split <;> simp_all

end Verif.Props

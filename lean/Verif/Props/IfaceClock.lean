import Verif.Proofs.IfaceClock
import Verif.Props.Clock
import Verif.Props.IfaceInfluence

/-! C102: without a path there is no influence over time, through interfaces either. -/
namespace Verif.Props
open Verif.Model Verif.Spec Verif.Proofs

/-- C102. A design with interfaces is observed twice, with the same edges of its clocks and the same values of its
registers at the beginning. If a bit that a block gives its value (a register or not, on an interface or not) ever
differs, then at this time or before, a bit that comes from outside has differed, and a path leads from a node that
reads it (or a bit of an instance connected to it) to the node of an assignment that can leave the bit its value.
Paths may go through registers and interfaces. Modport ports have the values of what they stand for. The text is that
of the marked design as in C71. Missing: designs that are not regular or not timed, where the netlist may lack a path
(see `part_of_interface_lost`, `output_on_interface_lost`, `influence_lost_first`), and effects on the time at
which blocks fire. -/
theorem over_time_via_partial {V : Type} {M : Meaning V} {E : TravEnv} {boxed : Str → Str → Bool}
    {ord : Tracker → List (Nat × Nat)} {top marked : List Member} {f : TextLoc → TextLoc}
    (h : Buildable E boxed ord top) {c : Col} {net : NetGraph} (hc : phase1 E top = .ok c)
    (hn : netlist E ord top = .ok net) (hm : Marked boxed E.opts.propCuts f marked top) (hl : combLoops net = [])
    {via : Nat → Nat → Nat × Nat} (hr : RegularVia E (eventsAll boxed E.opts.propCuts marked) c.cuts via)
    (ht : TimedVia E (eventsAll boxed E.opts.propCuts marked) c.cuts via)
    (hf : Faithful M E (eventsAll boxed E.opts.propCuts marked))
    (hf' : ∀ b ∈ blocksOf (eventsAll boxed E.opts.propCuts marked), Clocked b → Reflects M b.stmt)
    {fire : Nat → Deferred → Bool} {σ σ' : Nat → Vals V}
    (hs : Unrolls M E (eventsAll boxed E.opts.propCuts marked) fire σ)
    (hs' : Unrolls M E (eventsAll boxed E.opts.propCuts marked) fire σ')
    (hv : ∀ t, Shared E (eventsAll boxed E.opts.propCuts marked) via (σ t))
    (hv' : ∀ t, Shared E (eventsAll boxed E.opts.propCuts marked) via (σ' t))
    (hi : ∀ b ∈ blocksOf (eventsAll boxed E.opts.propCuts marked), ∀ x j, Kept b x j → σ 0 x j = σ' 0 x j)
    {b : Deferred} (hb : b ∈ blocksOf (eventsAll boxed E.opts.propCuts marked)) {x j t : Nat} (hx : ValueFrom b x j)
    (hne : σ t x j ≠ σ' t x j) :
    ∃ net', netlist E ord marked = .ok net' ∧ net = moveNet f net' ∧ ∃ loc, Leaves b.stmt x j loc ∧
      ∃ t' ≤ t, ∃ s q z i who, OuterSource E (eventsAll boxed E.opts.propCuts marked) c.cuts via s q ∧
      ¬ HeldVia E (eventsAll boxed E.opts.propCuts marked) c.cuts via s q ∧ σ t' s q ≠ σ' t' s q ∧
      Brings E (eventsAll boxed E.opts.propCuts marked) s q z i ∧
      Sees (eventsAll boxed E.opts.propCuts marked) z i who ∧
      ∃ m ∈ net.g.nodes, ∃ n ∈ net.g.nodes, net'.data m = who ∧ net'.data n = .assignment loc ∧
        Reach (Joined net) m n := by
  obtain ⟨c', net', g1, g2, g3, g4, rfl, g6⟩ := marked_built h hc hn hm hl
  obtain ⟨s'', hw'⟩ := built_of g1 g2 g4
  rw [g3.symm] at g6 hr ht
  have hL : ∀ u v, Passes E (eventsAll boxed E.opts.propCuts marked) c'.cuts u v → u ∈ datas net' := by
    intro u v hp
    obtain ⟨a, a1, _, _, _, a2, _⟩ := passes_hops hw' hp
    exact List.mem_map.2 ⟨a, a1, a2⟩
  have key : ∃ loc, Leaves b.stmt x j loc ∧
      ReachedVia E (eventsAll boxed E.opts.propCuts marked) c'.cuts via σ σ' t (.assignment loc) := by
    have hreg := registerVia_reached hr ht hf hf' hs hs' hv hv' hi _ hL g6 t
    rcases hx with hx | ⟨hx, hw⟩
    · exact hreg b hb x j hx hne
    · exact comb_reached hr ht hf hs.stable hs'.stable hv hv' _ hL g6 hreg hb hx hw hne
  obtain ⟨loc, l1, t', l2, s, q, z, i, who, l3, l4, l5, l6, l7, l8⟩ := key
  have l7' := l7
  obtain ⟨b2, hb2, r, Q, hu, hq, rfl, _, hrf, _⟩ := l7'
  obtain ⟨s, W, hv0, hdn⟩ := hw'.done
  obtain ⟨m, m1, _, m3, _⟩ := hdn.uses b2 hb2 who r Q hu hq hrf
  have hdat : net'.data m = who := by rw [hw'.late.data m m1, m3]
  obtain ⟨n, n1, n2, n3⟩ := hands_reach g1 g2 g4 hm.distinct ht.kept l8 (hw'.late.nodes m m1) hdat (use_kind hu)
  exact ⟨net', g4, rfl, loc, l1, t', l2, _, q, _, i, who, g3 ▸ l3, g3 ▸ l4, l5, l6, l7, m, hw'.late.nodes m m1, n, n1,
    hdat, n2, n3⟩

/-- C102, from input ports to an output port, in terms of the answers of the tool: if it reports no
combinational loop, and answers every query for a path from a node of an input port with a bit that ever
differs to a node of output port `p` with bit `j` by the empty path, then bit `j` of the output is always the
same. Block `b` assigns the inside `x` of the port, which may be a register; the ranges it assigns lie
within a driver of the port and between its cuts. -/
theorem no_path_forever_via_partial {V : Type} {M : Meaning V} {E : TravEnv} {boxed : Str → Str → Bool}
    {ord : Tracker → List (Nat × Nat)} {top marked : List Member} {f : TextLoc → TextLoc}
    (h : Buildable E boxed ord top) {c : Col} {net : NetGraph} (hc : phase1 E top = .ok c)
    (hn : netlist E ord top = .ok net) (hm : Marked boxed E.opts.propCuts f marked top) (hl : combLoops net = [])
    {via : Nat → Nat → Nat × Nat} (hr : RegularVia E (eventsAll boxed E.opts.propCuts marked) c.cuts via)
    (ht : TimedVia E (eventsAll boxed E.opts.propCuts marked) c.cuts via)
    (hf : Faithful M E (eventsAll boxed E.opts.propCuts marked))
    (hf' : ∀ b ∈ blocksOf (eventsAll boxed E.opts.propCuts marked), Clocked b → Reflects M b.stmt)
    {fire : Nat → Deferred → Bool} {σ σ' : Nat → Vals V}
    (hs : Unrolls M E (eventsAll boxed E.opts.propCuts marked) fire σ)
    (hs' : Unrolls M E (eventsAll boxed E.opts.propCuts marked) fire σ')
    (hv : ∀ t, Shared E (eventsAll boxed E.opts.propCuts marked) via (σ t))
    (hv' : ∀ t, Shared E (eventsAll boxed E.opts.propCuts marked) via (σ' t))
    (hz : ∀ b ∈ blocksOf (eventsAll boxed E.opts.propCuts marked), ∀ x j, Kept b x j → σ 0 x j = σ' 0 x j)
    (hp : ∀ t s q, OuterSource E (eventsAll boxed E.opts.propCuts marked) c.cuts via s q →
      ¬ HeldVia E (eventsAll boxed E.opts.propCuts marked) c.cuts via s q → σ t s q ≠ σ' t s q →
      Bare (eventsAll boxed E.opts.propCuts marked) s ∧ E.D.kind s ≠ .modportPort ∧
        ∃ p, LastSupply (eventsAll boxed E.opts.propCuts marked) s q p) {b : Deferred}
    (hb : b ∈ blocksOf (eventsAll boxed E.opts.propCuts marked)) {x j : Nat} (hx' : ValueFrom b x j) {p : PortDecl}
    (hpo : .port p ∈ eventsAll boxed E.opts.propCuts marked) (hx : E.D.port x = some p.sym) {lo hi : Int}
    (hsp : Spans E c.cuts p x lo hi)
    (hin : ∀ w ∈ allWrites b.stmt, w.sym = x → InRng w.bounds j → lo ≤ w.bounds.lower ∧ w.bounds.upper ≤ hi)
    (hno : ∀ (t s q n m : Nat) p', LastSupply (eventsAll boxed E.opts.propCuts marked) s q p' → σ t s q ≠ σ' t s q →
      PortNode E.D net p' q n → PortNode E.D net p j m → p'.dir ≠ p.dir ∧ findPath net n m = some []) (t : Nat) :
    σ t x j = σ' t x j := by
  refine Classical.byContradiction fun hne => ?_
  obtain ⟨net', g4, rfl, loc, l1, t', l2, s, q, z, i, who, l3, l4, l5, l6, l7, m, m1, n, n1, m2, n2, hmn⟩ :=
    over_time_via_partial h hc hn hm hl hr ht hf hf' hs hs' hv hv' hz hb hx' hne
  obtain ⟨c', _, k1, k2, k3, k4, _, _⟩ := marked_built h hc hn hm hl
  obtain ⟨s'', hw'⟩ := built_of k1 k2 g4
  obtain ⟨p1, p2, p', p3⟩ := hp t' s q l3 l4 l5
  obtain ⟨a, ⟨a1, y, bd, a2, a3, a4⟩, m', a5, a6, a7⟩ := port_fetch_of hw' hr.inlets p3 p1 p2 l6 l7
  have hu : who.kind = .assignment ∨ who.kind = .conditional ∨ who.kind = .case := by
    obtain ⟨_, _, r, Q, hu, _⟩ := l7
    exact use_kind hu
  have : m' = m := text_unique k1 g4 hm.distinct a5 m1 (a6.trans m2.symm) (by rw [m2]; exact hu)
  subst this
  obtain ⟨e, e1, e2, e3, k, e4, e5, e6, e7⟩ := leave_port hw' hb l1 hin hpo hx (k3 ▸ hsp)
  have hto : Reach (Joined net') n e.val := by
    by_cases hk : Clocked b
    · obtain ⟨n', f1, f2, f3⟩ := (e7 hk).2
      have : n' = n := text_unique k1 g4 hm.distinct f1 n1 (f2.trans n2.symm) (by rw [n2]; exact .inl rfl)
      subst this
      exact (Reach.refl.tail f3).tail e5
    · have : k = n := text_unique k1 g4 hm.distinct e4 n1 ((e6 hk).trans n2.symm) (by rw [n2]; exact .inl rfl)
      subst this
      exact Reach.refl.tail e5
  have hen := (hw'.walk.eff.fine.ok.vars p.sym e e1).1
  have hdat : net'.data e.val = .port (E.D.ref x).name (E.D.ref x).path (E.D.ref x).loc p.dir ⟨e.lo, e.hi⟩ := by
    rw [hw'.early.data _ hen, (port_at hw'.walk hpo).2.1 x hsp.1 e e1]; rfl
  have hpn : PortNode E.D (moveNet f net') p j e.val := by
    refine ⟨hw'.early.nodes _ hen, x, ⟨e.lo, e.hi⟩, hsp.1, (inRng_iff _ _).2 ?_, ?_⟩
    · simp only [BitRange.lower, BitRange.upper]; omega
    · show moveData f (net'.data e.val) = _
      rw [hdat]; rfl
  have hpa : PortNode E.D (moveNet f net') p' q a := by
    refine ⟨a1, y, bd, a2, a3, ?_⟩
    show moveData f (net'.data a) = _
    rw [a4]; rfl
  obtain ⟨hdir, hq⟩ := hno t' s q a e.val p' p3 l5 hpa hpn
  have hne : a ≠ e.val := by
    rintro rfl
    rw [a4] at hdat
    injection hdat with _ _ _ hd _
    exact hdir hd
  obtain ⟨path, f1, _, f3⟩ := path_answers h.design h.visits hn a1 hne
  rw [hq] at f1
  cases f1
  exact f3 rfl (reach_trans (reach_trans (hops_joined (net := net') a7) hmn) hto)

/-! ### A concrete design
```
interface I; logic [7:0] m; modport p(output m); modport c(input m); endinterface
module prod(I.p i, input clk, [7:0] x);
  always_ff @(posedge clk) i.m <= x; endmodule                        // line 1
module cons(I.c i, input clk, output [7:0] y);
  logic [7:0] q; always_ff @(posedge clk) q <= i.m;                   // line 2
  assign y = q; endmodule                                             // line 4
module t(input clk, [7:0] a, c, output [7:0] y, w); I i();
  assign w = c;                                                       // line 5
```
The insides of the ports are the signals 0, 3, 1 and 4, `q` is signal 2, `clk` is signal 9, the modport ports are the
signals 30 and 31, and the variable `m` is signal 32. -/

def iwB1 : Deferred := .procedural .alwaysFF (.timed (.signalEvent ⟨.posEdge, some 9⟩))
  (.assign (ln 1) false (.aligned [⟨[dsRef 30], [.lsp (dsRef 0)], ln 1⟩]))
def iwB2 : Deferred := .procedural .alwaysFF (.timed (.signalEvent ⟨.posEdge, some 9⟩))
  (.assign (ln 2) false (.aligned [⟨[dsRef 2], [.lsp (dsRef 31)], ln 2⟩]))

def iwTop : List Member := [.inst false ['t'] ['t'] [.port (hdIn 20 0), .port (hdIn 22 3), .port (hdOut 21 1),
  .port (hdOut 23 4), .inst false ['I'] ['t', '.', 'i'] [.variable 32 true [(0, 7)]] [],
  .block iwB1, .block iwB2, .block ifB2, .block ifB3] []]

def iwEvents : List Event := [.port (hdIn 20 0), .port (hdIn 22 3), .port (hdOut 21 1), .port (hdOut 23 4),
  .variable 32 [(0, 7)], .block iwB1, .block iwB2, .block ifB2, .block ifB3]

def iwCol : Col := (phase1 ivE iwTop).toOption.getD {}
def iwNet : NetGraph := (netlist ivE Tracker.slots iwTop).toOption.getD {}

theorem iw_events : eventsAll hdBoxed ivE.opts.propCuts iwTop = iwEvents := by
  show eventsAll hdBoxed true iwTop = iwEvents
  simp [iwTop, eventsAll, events, hdBoxed, iwEvents]

theorem iw_blocks : blocksOf iwEvents = [iwB1, iwB2, ifB2, ifB3] := rfl

theorem iw_elab : Elaborated ivE hdBoxed iwTop where
  boxes := by simp [DecidesBoxes, Boxed, hdBoxed, ivE, hdE]
  ok := by
    rw [iw_events]
    simp [iwEvents, EventOk, hdIn, hdOut, PortDriver.hi, ivE, ivD, hdE, hdD]
  once := by
    rw [iw_events]
    show [20, 22, 21, 23, 32].Nodup
    decide

theorem iw_phase1 : phase1 ivE iwTop = .ok iwCol := by
  obtain ⟨c, h, _⟩ := phase1_total_partial iw_elab
  rw [iwCol, h]; rfl

theorem iw_build : Buildable ivE hdBoxed Tracker.slots iwTop where
  design := iw_elab
  plain := by
    intro c hc
    rw [iw_phase1] at hc
    exact Except.ok.inj hc ▸
      plain_of_two (lo := 0) (mid := 3) (hi := 7) (by decide) (by decide) (by decide +kernel) (by decide) (by decide)
  live := by
    rw [iw_events, iw_blocks]
    intro b hb; simp at hb; rcases hb with rfl | rfl | rfl | rfl <;> decide
  events := by
    rw [iw_events, iw_blocks]
    intro b hb; simp at hb
    rcases hb with rfl | rfl | rfl | rfl
    · simp [iwB1, PlainEvents, SignalEventsOnly, eventsOf, PlainClocks]
    · simp [iwB2, PlainEvents, SignalEventsOnly, eventsOf, PlainClocks]
    · trivial
    · trivial
  visits := fun _ => List.Perm.refl _
  ports := by
    rw [iw_events, iw_blocks]
    have : ∀ b ∈ [iwB1, iwB2, ifB2, ifB3], ∀ w ∈ allWrites b.stmt, w.sym < 20 ∨ w.sym = 30 := by
      intro b hb; simp at hb; rcases hb with rfl | rfl | rfl | rfl <;> decide
    intro p hp b hb w hw
    have := this b hb w hw
    simp [iwEvents, hdIn, hdOut] at hp
    rcases hp with rfl | rfl | rfl | rfl <;> simp only <;> omega

theorem iw_net : netlist ivE Tracker.slots iwTop = .ok iwNet := by
  obtain ⟨_, _, net, _, _, _, _, h, _⟩ := netlist_total_partial iw_build
  rw [iwNet, h]; rfl

theorem iw_marked : Marked hdBoxed ivE.opts.propCuts id iwTop iwTop :=
  ⟨rfl, distinct_of_nodup (by rw [iw_events]; decide +kernel)⟩

theorem iw_loops : combLoops iwNet = [] := by decide +kernel

theorem iw_clocked {b : Deferred} (hb : b = iwB1 ∨ b = iwB2) : Clocked b := by
  rcases hb with rfl | rfl
  · exact ⟨⟨_, List.mem_singleton.2 rfl, by decide⟩, by simp [iwB1, blockEvents, eventsOf]⟩
  · exact ⟨⟨_, List.mem_singleton.2 rfl, by decide⟩, by simp [iwB2, blockEvents, eventsOf]⟩

theorem iw_comb {b : Deferred} (hb : b ∈ blocksOf iwEvents) (hc : ¬ Clocked b) : b = ifB2 ∨ b = ifB3 := by
  rw [iw_blocks] at hb; simp at hb
  rcases hb with h | h | h
  · exact absurd (iw_clocked (.inl h)) hc
  · exact absurd (iw_clocked (.inr h)) hc
  · exact h

theorem iw_reg {b : Deferred} (hb : b ∈ blocksOf iwEvents) (hc : Clocked b) : b = iwB1 ∨ b = iwB2 := by
  rw [iw_blocks] at hb; simp at hb
  rcases hb with h | h | rfl | rfl
  · exact .inl h
  · exact .inr h
  · exact absurd hc (if_clocked (by simp))
  · exact absurd hc (if_clocked (by simp))

theorem iw_declares {y : Nat} (h : y < 20) : ∀ ev ∈ iwEvents, y ∉ declares ev := by
  intro ev hev hy
  simp [iwEvents] at hev
  rcases hev with rfl | rfl | rfl | rfl | rfl | rfl | rfl | rfl | rfl <;> simp [declares, hdIn, hdOut] at hy <;> omega

theorem iw_write1 {w : Wr} (hw : w ∈ allWrites iwB1.stmt) : w = ⟨30, ⟨0, 7⟩, ln 1, false⟩ := by
  simpa [iwB1, Deferred.stmt, allWrites, asgWrites, dsRef] using hw

theorem iw_write2 {w : Wr} (hw : w ∈ allWrites iwB2.stmt) : w = ⟨2, ⟨0, 7⟩, ln 2, false⟩ := by
  simpa [iwB2, Deferred.stmt, allWrites, asgWrites, dsRef] using hw

theorem iw_bare {y : Nat} (h : y < 20) (h2 : y ≠ 2) : Bare iwEvents y := by
  refine ⟨iw_declares h, fun b hb hc w hw => ?_⟩
  rcases iw_reg hb hc with rfl | rfl
  · rw [iw_write1 hw]; simp only; omega
  · rw [iw_write2 hw]; simp only; omega

theorem iw_on {y : Nat} : OnIface ivE iwEvents y ↔ y = 30 ∨ y = 31 ∨ y = 32 := by
  constructor
  · rintro (h | ⟨ds, h⟩)
    · by_cases h1 : y = 30 ∨ y = 31
      · omega
      · by_cases h2 : y = 32 <;> simp [ivE, ivD, h1, h2] at h
    · simp [iwEvents] at h; omega
  · rintro (rfl | rfl | rfl)
    · exact .inl rfl
    · exact .inl rfl
    · exact .inr ⟨[(0, 7)], by simp [iwEvents]⟩

theorem iw_no_conn {p : PortDecl} {k : Conn} : ¬ Before iwEvents p k := by
  intro h
  have := (before_mem h).2
  simp [iwEvents] at this

theorem iw_no_inlet {y q x j : Nat} : ¬ Inlet ivE iwEvents y q x j := by
  rintro ⟨p, k, _, h, _⟩
  exact iw_no_conn h.1

theorem iw_no_up {prev : Option Conn} {x y j q : Nat} {lo hi : Int} {cuts : CutReg} :
    ¬ Up ivE iwEvents cuts prev x lo hi j y q := by
  intro h
  cases h with
  | one h => obtain ⟨p, _, h, _⟩ := h; exact iw_no_conn h.1
  | more h _ => obtain ⟨p, _, h, _⟩ := h; exact iw_no_conn h.1

theorem iw_assigned {y q : Nat} {cuts : CutReg} (h : Assigned ivE iwEvents cuts y q) : y = 1 ∨ y = 4 := by
  obtain ⟨b, hb, hc, x, j, ⟨w, hw, _, hx, _⟩, h⟩ := h
  rcases h with ⟨_, rfl, _⟩ | ⟨_, _, _, h⟩
  · have : ∀ b ∈ [ifB2, ifB3], ∀ w ∈ allWrites b.stmt, w.sym = 1 ∨ w.sym = 4 := by
      intro b hb; simp at hb; rcases hb with rfl | rfl <;> decide
    rw [← hx]; exact this b (by simpa using iw_comb hb hc) w hw
  · exact absurd h iw_no_up

theorem iw_driven {q : Nat} {d : Nat × Nat} (h : DrivenRange iwEvents 32 q d) : d = (0, 7) := by
  obtain ⟨_, _, ds, h1, h2⟩ := h
  simp [iwEvents] at h1
  subst h1
  simpa using h2

theorem iw_regular (cuts : CutReg) : RegularVia ivE iwEvents cuts ivVia where
  comb := by
    intro b hb hc
    rcases iw_comb hb hc with rfl | rfl <;> exact comb_single (by decide)
  settled := by
    intro b hb hc
    rcases iw_comb hb hc with rfl | rfl <;> exact settled_apart (by decide) (by decide)
  complete := by
    intro b hb hc x p ⟨w, hw, hh⟩ tr ht
    rcases iw_comb hb hc with rfl | rfl <;> cases ht <;> exact ⟨w, hw, hh⟩
  assigned := by
    intro y q h
    rcases iw_assigned h with rfl | rfl <;> exact .inr ⟨iw_bare (by decide) (by decide), by decide⟩
  inlets := fun y q x j h => absurd h iw_no_inlet
  wired := fun p k x j y q _ h => absurd h.1 iw_no_conn
  outlets := fun p k e h => absurd h iw_no_conn
  inside := by
    rintro x j y q ⟨p, k, e, _, h, _⟩
    exact absurd h.1 iw_no_conn
  nested := ⟨fun _ => 0, fun y q x j h => absurd h iw_no_inlet⟩
  reads := by
    intro b hb hc who r Q hu hon
    have hr := use_in hu
    rw [iw_on] at hon
    rcases iw_comb hb hc with rfl | rfl <;> simp [ifB2, ifB3, Deferred.stmt, readsOf] at hr <;> subst hr <;>
      simp [dsRef] at hon
  writes := by
    intro b hb hc y i ⟨w, hw, _, hy, _⟩ hon
    rw [iw_on] at hon
    have : ∀ b ∈ [ifB2, ifB3], ∀ w ∈ allWrites b.stmt, w.sym < 20 := by
      intro b hb; simp at hb; rcases hb with rfl | rfl <;> decide
    have := this b (by simpa using iw_comb hb hc) w hw
    omega
  clocks := by
    intro x ds h b hb hc w hw
    simp [iwEvents] at h
    rcases iw_reg hb hc with rfl | rfl
    · rw [iw_write1 hw]; simp only; omega
    · rw [iw_write2 hw]; simp only; omega

theorem iw_kept {b : Deferred} {x j : Nat} (hb : b ∈ blocksOf iwEvents) (h : Kept b x j) :
    ((b = iwB1 ∧ x = 30) ∨ (b = iwB2 ∧ x = 2)) ∧ j ≤ 7 := by
  obtain ⟨hc, w, hw, _, h1, h2⟩ := h
  rcases iw_reg hb hc with rfl | rfl
  · obtain rfl := iw_write1 hw
    exact ⟨.inl ⟨rfl, h1.symm⟩, by have := (eight.1 h2).2; omega⟩
  · obtain rfl := iw_write2 hw
    exact ⟨.inr ⟨rfl, h1.symm⟩, by have := (eight.1 h2).2; omega⟩

theorem iw_timed (cuts : CutReg) : TimedVia ivE iwEvents cuts ivVia where
  sync := by
    intro b hb hc
    rcases iw_reg hb hc with rfl | rfl
    · refine .assign fun l r h => fits_same fun w hw _ => ?_
      rw [iw_write1 hw]
      cases h with
      | seg h1 h2 h3 => simp at h1; subst h1; simp at h2; subst h2; cases h3; rfl
    · refine .assign fun l r h => fits_same fun w hw _ => ?_
      rw [iw_write2 hw]
      cases h with
      | seg h1 h2 h3 => simp at h1; subst h1; simp at h2; subst h2; cases h3; rfl
  count := by
    intro b hb hc who r Q hu p hp
    have : ∀ b ∈ [iwB1, iwB2], ∀ x ∈ usesOf b.stmt, x.2.bounds = ⟨0, 7⟩ := by
      intro b hb; simp at hb; rcases hb with rfl | rfl <;> decide
    rw [this b (by simpa using iw_reg hb hc) _ (use_of hu)] at hp
    exact (eight.1 hp).1
  kept := by
    intro b hb hc w hw hon
    rcases iw_reg hb hc with rfl | rfl
    · rw [iw_write1 hw] at hon
      exact absurd (iw_on.2 (.inl rfl)) hon
    · obtain rfl := iw_write2 hw
      refine ⟨⟨by decide, fun v hv _ => by rw [iw_write2 hv], fun b' h' who r Q hu _ => ?_⟩,
        ⟨by decide, iw_declares (by decide), ⟨[iwB1], [ifB2, ifB3], rfl, ?_⟩,
          fun _ _ _ _ _ _ h => absurd h.1 iw_no_conn⟩⟩
      · have : ∀ b ∈ [iwB1, iwB2, ifB2, ifB3], ∀ x ∈ usesOf b.stmt, x.2.bounds = ⟨0, 7⟩ := by
          intro b hb; simp at hb; rcases hb with rfl | rfl | rfl | rfl <;> decide
        exact this b' h' _ (use_of hu)
      · intro b' hb' hc' v hv
        simp at hb'
        rcases hb' with rfl | rfl | rfl
        · rw [iw_write1 hv]; decide
        · exact absurd hc' (if_clocked (by simp))
        · exact absurd hc' (if_clocked (by simp))
  outs := by
    intro b hb x j y q hk h
    rcases h with ⟨h, _⟩ | ⟨_, _, _, h⟩
    · exact absurd hk.1 h
    · exact absurd h iw_no_up
  last := by
    intro b hb hc x p loc hl w hw hh
    refine .inl ?_
    have key : ∀ v : Wr, nbaWrites true b.stmt = [v] → w = v → w.loc = loc := by
      rintro v hn rfl
      rcases hl with ⟨pre, v', post, h1, _, h3, _⟩ | ⟨h, _⟩
      · rw [hn] at h1
        obtain ⟨_, rfl, _⟩ := single_split h1
        exact h3
      · exact absurd hh (h _ (by rw [hn]; simp))
    rcases iw_reg hb hc with rfl | rfl
    · exact key _ (by decide) (iw_write1 hw)
    · exact key _ (by decide) (iw_write2 hw)
  reads := by
    intro b hb hc who r Q hu hon i hi hno
    have hr := use_in hu
    rw [iw_on] at hon
    rcases iw_reg hb hc with rfl | rfl <;> simp [iwB1, iwB2, Deferred.stmt, readsOf] at hr <;> subst hr
    · simp [dsRef] at hon
    · have hi' : 0 ≤ (i : Int) ∧ (i : Int) ≤ 7 := eight.1 hi
      exact ⟨(0, 7), ⟨by simp, by simp [ivVia, dsRef]; omega, [(0, 7)], by simp [iwEvents, ivVia, dsRef], by simp⟩,
        .inl ⟨rfl, List.mem_singleton.2 rfl, i, hi, hno⟩⟩
  writes := by
    intro b hb y i hk hon d hd
    rw [iw_on] at hon
    obtain ⟨⟨rfl, rfl⟩ | ⟨rfl, rfl⟩, _⟩ := iw_kept hb hk
    · obtain rfl : d = (0, 7) := iw_driven (q := (ivVia 30 i).2) hd
      exact .inl ⟨rfl, fun e => List.mem_singleton.2 rfl⟩
    · omega

/-- What the lines compute. -/
def iwM : Meaning Bool where
  value := fun loc ρ _ p => decide (0 ≤ p ∧ p ≤ 7) && if loc.line = 1 then ρ 0 p else if loc.line = 2 then ρ 31 p
    else if loc.line = 4 then ρ 2 p else if loc.line = 5 then ρ 3 p else false
  pick := fun _ _ ρ _ => ρ 3 0
  feed := fun _ _ _ => false

/-- The values when `a` is always `v` and `c` is 0: `i.m` is `v` from time 1 on, and `q` from time 2 on. -/
def iwVals (v : Bool) (t : Nat) : Vals Bool := fun x p =>
  decide (0 ≤ p ∧ p ≤ 7) && if x = 0 then v else if x = 1 ∨ x = 2 then v && decide (2 ≤ t) else
    if 30 ≤ x ∧ x ≤ 32 then v && decide (1 ≤ t) else false

theorem iw_shared (v : Bool) (t : Nat) : Shared ivE iwEvents ivVia (iwVals v t) := by
  intro y i h
  rcases iw_on.1 h with rfl | rfl | rfl <;> rfl

theorem iw_faithful : Faithful iwM ivE iwEvents where
  blocks := by
    intro b hb hc
    rcases iw_comb hb hc with rfl | rfl <;> intro l hl <;> simp [asgLocs] at hl <;> subst hl
    · exact looks_lsp (g := ⟨[dsRef 1], [.lsp (dsRef 2)], ln 4⟩) (n := 2) (by simp) (by simp) (fun _ _ _ => by simp [iwM, ln])
    · exact looks_lsp (g := ⟨[dsRef 4], [.lsp (dsRef 3)], ln 5⟩) (n := 3) (by simp) (by simp) (fun _ _ _ => by simp [iwM, ln])
  inlets := fun x j ρ ρ' _ => rfl

theorem iw_reflects : ∀ b ∈ blocksOf iwEvents, Clocked b → Reflects iwM b.stmt := by
  intro b hb hc
  rcases iw_reg hb hc with rfl | rfl <;> intro l hl <;> simp [asgLocs] at hl <;> subst hl
  · exact looks_lsp (g := ⟨[dsRef 30], [.lsp (dsRef 0)], ln 1⟩) (n := 0) (by simp) (by simp) (fun _ _ _ => by simp [iwM, ln])
  · exact looks_lsp (g := ⟨[dsRef 2], [.lsp (dsRef 31)], ln 2⟩) (n := 31) (by simp) (by simp) (fun _ _ _ => by simp [iwM, ln])

theorem iw_unrolls (v : Bool) : Unrolls iwM ivE iwEvents (fun _ _ => true) (iwVals v) where
  stable := fun t => {
    blocks := by
      intro b hb hc x p ⟨w, hw, hh⟩
      obtain ⟨_, h1, h2⟩ := hh
      rcases iw_comb hb hc with rfl | rfl <;>
        simp [ifB2, ifB3, Deferred.stmt, allWrites, asgWrites, dsRef] at hw <;> subst hw <;>
        have h3 := eight.1 h2 <;> simp only at h1 <;> subst h1 <;>
        simp [ifB2, ifB3, Deferred.stmt, run, store, asgWrites, dsRef, iwM, iwVals, BitRange.lower,
          BitRange.upper, ln, h3]
    inlets := fun y q x j h => absurd h iw_no_inlet
    outlets := by
      rintro x j y q ⟨p, k, e, _, h, _⟩
      exact absurd h.1 iw_no_conn }
  step := by
    intro t b hb x j hk
    obtain ⟨⟨rfl, rfl⟩ | ⟨rfl, rfl⟩, hj⟩ := iw_kept hb hk
    all_goals
      have h3 : (0 : Int) ≤ j ∧ (j : Int) ≤ 7 := by omega
      simp [iwB1, iwB2, Deferred.stmt, later, store, asgWrites, dsRef, iwM, iwVals, BitRange.lower, BitRange.upper, ln,
        h3]
      intro h
      exfalso
      omega

theorem iw_init : ∀ b ∈ blocksOf iwEvents, ∀ x j, Kept b x j → iwVals false 0 x j = iwVals true 0 x j := by
  intro b hb x j hk
  obtain ⟨⟨_, rfl⟩ | ⟨_, rfl⟩, _⟩ := iw_kept hb hk <;> simp [iwVals]

/-- Output `y` differs at time 2, so there is a path. It goes through the interface and the register `q`. -/
example : ∃ net', netlist ivE Tracker.slots iwTop = .ok net' ∧ iwNet = moveNet id net' ∧
    ∃ loc, Leaves ifB2.stmt 1 0 loc ∧ ∃ t' ≤ 2, ∃ s q z i who,
      OuterSource ivE (eventsAll hdBoxed ivE.opts.propCuts iwTop) iwCol.cuts ivVia s q ∧
      ¬ HeldVia ivE (eventsAll hdBoxed ivE.opts.propCuts iwTop) iwCol.cuts ivVia s q ∧
      iwVals false t' s q ≠ iwVals true t' s q ∧
      Brings ivE (eventsAll hdBoxed ivE.opts.propCuts iwTop) s q z i ∧
      Sees (eventsAll hdBoxed ivE.opts.propCuts iwTop) z i who ∧
      ∃ m ∈ iwNet.g.nodes, ∃ n ∈ iwNet.g.nodes, net'.data m = who ∧ net'.data n = .assignment loc ∧
        Reach (Joined iwNet) m n :=
  over_time_via_partial (M := iwM) iw_build iw_phase1 iw_net iw_marked iw_loops (by rw [iw_events]; exact iw_regular _)
    (by rw [iw_events]; exact iw_timed _) (by rw [iw_events]; exact iw_faithful)
    (by rw [iw_events]; exact iw_reflects) (fire := fun _ _ => true)
    (by rw [iw_events]; exact iw_unrolls false) (by rw [iw_events]; exact iw_unrolls true)
    (by rw [iw_events]; exact iw_shared false) (by rw [iw_events]; exact iw_shared true)
    (by rw [iw_events]; exact iw_init) (b := ifB2) (by rw [iw_events, iw_blocks]; simp)
    (.inr ⟨if_clocked (by simp), ⟨1, ⟨0, 7⟩, ln 4, true⟩, by decide, rfl, rfl, eight.2 (by decide)⟩) (by decide)

/-- What differs and comes from outside are bits of port `a`. -/
theorem iw_sources {s q t : Nat} {cuts : CutReg} (h : OuterSource ivE iwEvents cuts ivVia s q)
    (hh : ¬ HeldVia ivE iwEvents cuts ivVia s q) (hne : iwVals false t s q ≠ iwVals true t s q) : s = 0 ∧ q ≤ 7 := by
  have h0 : (s < 3 ∨ 30 ≤ s ∧ s ≤ 32) ∧ q ≤ 7 := by
    have : ¬ ¬ ((s < 3 ∨ 30 ≤ s ∧ s ≤ 32) ∧ q ≤ 7) := by
      intro hc
      apply hne
      unfold iwVals
      by_cases h1 : s < 3 ∨ 30 ≤ s ∧ s ≤ 32
      · rw [decide_eq_false (by omega : ¬ (0 ≤ (q : Int) ∧ (q : Int) ≤ 7))]
        rfl
      · rw [if_neg (by omega), if_neg (by omega), if_neg (by omega), if_neg (by omega), if_neg (by omega),
          if_neg (by omega)]
    omega
  have k30 : Kept iwB1 30 q :=
    ⟨iw_clocked (.inl rfl), ⟨30, ⟨0, 7⟩, ln 1, false⟩, by decide, rfl, rfl, eight.2 (by omega)⟩
  have g1 : s ≠ 1 := by
    rintro rfl
    exact h.1.1 ⟨ifB2, by rw [iw_blocks]; simp, if_clocked (by simp), 1, q,
      ⟨⟨1, ⟨0, 7⟩, ln 4, true⟩, by decide, rfl, rfl, eight.2 (by omega)⟩, .inl ⟨if_clocked (by simp), rfl, rfl⟩⟩
  have g2 : s ≠ 2 := by
    rintro rfl
    exact hh (.inl ⟨iwB2, by rw [iw_blocks]; simp, 2, q,
      ⟨iw_clocked (.inr rfl), ⟨2, ⟨0, 7⟩, ln 2, false⟩, by decide, rfl, rfl, eight.2 (by omega)⟩, .inl ⟨rfl, rfl⟩⟩)
  have g3 : ¬ (s = 30 ∨ s = 31 ∨ s = 32) := fun hs => hh (.inr ⟨iw_on.2 hs, iwB1, by rw [iw_blocks]; simp, 30, q,
    iw_on.2 (.inl rfl), by rcases hs with rfl | rfl | rfl <;> rfl, k30⟩)
  omega

theorem iw_in {s q : Nat} {p : PortDecl} (h : LastSupply iwEvents s q p) (hs : s ≠ 3) : s = 0 ∧ p = hdIn 20 0 := by
  obtain ⟨pre, post, h1, h2, _⟩ := h
  have hm : Event.port p ∈ iwEvents := h1 ▸ by simp
  simp [iwEvents] at hm
  obtain ⟨a1, d, a2, a3, _⟩ := h2
  rcases hm with rfl | rfl | rfl | rfl <;> simp [hdIn, hdOut] at a1 a2 <;> subst a2
  · exact ⟨a1.symm, rfl⟩
  · omega
  · cases a3
  · cases a3

theorem iw_inputs : ∀ t s q, OuterSource ivE iwEvents iwCol.cuts ivVia s q → ¬ HeldVia ivE iwEvents iwCol.cuts ivVia s q →
    iwVals false t s q ≠ iwVals true t s q → Bare iwEvents s ∧ ivE.D.kind s ≠ .modportPort ∧ ∃ p, LastSupply iwEvents s q p := by
  intro t s q h hh hne
  obtain ⟨rfl, hq⟩ := iw_sources h hh hne
  refine ⟨iw_bare (by decide) (by decide), by decide, hdIn 20 0, [], _, rfl,
    ⟨rfl, ⟨0, 7, true⟩, by simp [hdIn], rfl, by simp, hq⟩, ?_⟩
  intro p hp hs
  simp at hp
  rcases hp with rfl | rfl | rfl <;> simp [Supplies, hdIn, hdOut] at hs

theorem iw_cuts : iwCol.cuts 4 = none := by decide +kernel

theorem iw_spans : Spans ivE iwCol.cuts (hdOut 23 4) 4 0 7 := by
  refine ⟨rfl, by decide, ⟨⟨0, 7, false⟩, by simp [hdOut], by decide, by decide⟩, fun _ l hl => ?_⟩
  rw [iw_cuts] at hl
  cases hl

/-- There is no path from port `a` to port `w`, so `w` is always the same. -/
example (t : Nat) : iwVals false t 4 0 = iwVals true t 4 0 :=
  no_path_forever_via_partial (M := iwM) iw_build iw_phase1 iw_net iw_marked iw_loops
    (by rw [iw_events]; exact iw_regular _) (by rw [iw_events]; exact iw_timed _)
    (by rw [iw_events]; exact iw_faithful) (by rw [iw_events]; exact iw_reflects) (fire := fun _ _ => true)
    (σ := iwVals false) (σ' := iwVals true) (by rw [iw_events]; exact iw_unrolls false)
    (by rw [iw_events]; exact iw_unrolls true)
    (by rw [iw_events]; exact iw_shared false) (by rw [iw_events]; exact iw_shared true)
    (by rw [iw_events]; exact iw_init) (by rw [iw_events]; exact iw_inputs) (b := ifB3) (x := 4) (j := 0)
    (by rw [iw_events, iw_blocks]; simp)
    (.inr ⟨if_clocked (by simp), ⟨4, ⟨0, 7⟩, ln 5, true⟩, by decide, rfl, rfl, eight.2 (by decide)⟩) (p := hdOut 23 4)
    (by rw [iw_events]; simp [iwEvents]) rfl (lo := 0) (hi := 7)
    iw_spans
    (by intro w hw _ _; simp [ifB3, Deferred.stmt, allWrites, asgWrites, dsRef] at hw; subst hw; decide)
    (by
      rw [iw_events]
      intro t s q n m p' h1 h2 h3 h4
      have hs : s ≠ 3 := by rintro rfl; exact h2 rfl
      obtain ⟨rfl, rfl⟩ := iw_in h1 hs
      obtain ⟨n1, x, b, hx, _, n2⟩ := h3
      obtain ⟨m1, y, b', hy, _, m2⟩ := h4
      cases hx; cases hy
      exact ⟨by decide, (by decide +kernel : ∀ n ∈ iwNet.g.nodes, ∀ m ∈ iwNet.g.nodes,
        portName (iwNet.data n) = some ['a'] → portName (iwNet.data m) = some ['e'] → findPath iwNet n m = some [])
          n n1 m m1 (by rw [n2]; rfl) (by rw [m2]; rfl)⟩) t

end Verif.Props

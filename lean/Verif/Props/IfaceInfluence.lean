import Verif.Proofs.IfaceInfluence
import Verif.Props.Influence
import Verif.Props.IfaceFlow

/-! C100: without a path there is no influence, through interfaces either. -/
namespace Verif.Props
open Verif.Model Verif.Spec Verif.Proofs

/-- C100. If the values of a bit that a block assigns differ between two stable states of a design with interfaces,
the values of some source differ, and a path without registers leads from a node that reads the source to the node
of an assignment that can leave the bit its value. As in C71 the text is that of the marked design. Missing: designs
that are not regular, where the netlist may lack a path (see `part_of_interface_lost`). -/
theorem influence_via_partial {V : Type} {M : Meaning V} {E : TravEnv} {boxed : Str → Str → Bool}
    {ord : Tracker → List (Nat × Nat)} {top marked : List Member} {f : TextLoc → TextLoc}
    (h : Buildable E boxed ord top) {c : Col} {net : NetGraph} (hc : phase1 E top = .ok c)
    (hn : netlist E ord top = .ok net) (hm : Marked boxed E.opts.propCuts f marked top) (hl : combLoops net = [])
    {via : Nat → Nat → Nat × Nat}
    (hr : RegularVia E (eventsAll boxed E.opts.propCuts marked) c.cuts via)
    (hf : Faithful M E (eventsAll boxed E.opts.propCuts marked)) {σ σ' : Vals V}
    (hs : Solves M E (eventsAll boxed E.opts.propCuts marked) σ)
    (hs' : Solves M E (eventsAll boxed E.opts.propCuts marked) σ')
    (hv : Shared E (eventsAll boxed E.opts.propCuts marked) via σ)
    (hv' : Shared E (eventsAll boxed E.opts.propCuts marked) via σ') {b : Deferred}
    (hb : b ∈ blocksOf (eventsAll boxed E.opts.propCuts marked)) (hk : ¬ Clocked b) {x j : Nat}
    (hw : ∃ w ∈ allWrites b.stmt, Hits true x j w) (hne : σ x j ≠ σ' x j) :
    ∃ net', netlist E ord marked = .ok net' ∧ net = moveNet f net' ∧ ∃ loc, Leaves b.stmt x j loc ∧ ∃ s q z i who,
      OuterSource E (eventsAll boxed E.opts.propCuts marked) c.cuts via s q ∧ σ s q ≠ σ' s q ∧
      Brings E (eventsAll boxed E.opts.propCuts marked) s q z i ∧
      Fetches (eventsAll boxed E.opts.propCuts marked) z i who ∧
      ∃ m ∈ net.g.nodes, ∃ n ∈ net.g.nodes, net'.data m = who ∧ net'.data n = .assignment loc ∧
        Reach (CombStep net) m n := by
  obtain ⟨c', net', g1, g2, g3, g4, rfl, g6⟩ := marked_built h hc hn hm hl
  obtain ⟨s'', hw'⟩ := built_of g1 g2 g4
  rw [g3.symm] at g6 hr
  obtain ⟨loc, l1, s, q, z, i, who, l2, l3, l4, l5, l6⟩ := differs_via hr hf hs hs' hv hv' (datas net')
    (fun u v hp => by
      obtain ⟨a, a1, _, _, _, a2, _⟩ := passes_hops hw' hp
      exact List.mem_map.2 ⟨a, a1, a2⟩) g6 hb hk hw hne
  obtain ⟨m, m1, n, n1, m2, n2, hmn⟩ := touched_node g1 g2 g4 hm.distinct l5 l6
  exact ⟨net', g4, rfl, loc, l1, s, q, z, i, who, g3 ▸ l2, l3, l4, l5, m, m1, n, n1, m2, n2,
    reach_map (f := id) (fun _ _ => comb_move) hmn⟩

/-- C100, from input ports: if two stable states of the design differ, among the sources, in bits of
input ports only, and no path without registers leads from a node of a port with such a bit to an
assignment that can leave bit `j` of `x` its value, then bit `j` of `x` has the same value in both. -/
theorem no_path_via_partial {V : Type} {M : Meaning V} {E : TravEnv} {boxed : Str → Str → Bool}
    {ord : Tracker → List (Nat × Nat)} {top marked : List Member} {f : TextLoc → TextLoc}
    (h : Buildable E boxed ord top) {c : Col} {net net' : NetGraph} (hc : phase1 E top = .ok c)
    (hn : netlist E ord top = .ok net) (hm : Marked boxed E.opts.propCuts f marked top) (hl : combLoops net = [])
    (hn' : netlist E ord marked = .ok net')
    {via : Nat → Nat → Nat × Nat}
    (hr : RegularVia E (eventsAll boxed E.opts.propCuts marked) c.cuts via)
    (hf : Faithful M E (eventsAll boxed E.opts.propCuts marked)) {σ σ' : Vals V}
    (hs : Solves M E (eventsAll boxed E.opts.propCuts marked) σ)
    (hs' : Solves M E (eventsAll boxed E.opts.propCuts marked) σ')
    (hv : Shared E (eventsAll boxed E.opts.propCuts marked) via σ)
    (hv' : Shared E (eventsAll boxed E.opts.propCuts marked) via σ')
    (hp : ∀ s q, OuterSource E (eventsAll boxed E.opts.propCuts marked) c.cuts via s q → σ s q ≠ σ' s q →
      Bare (eventsAll boxed E.opts.propCuts marked) s ∧ E.D.kind s ≠ .modportPort ∧
        ∃ p, LastSupply (eventsAll boxed E.opts.propCuts marked) s q p) {b : Deferred}
    (hb : b ∈ blocksOf (eventsAll boxed E.opts.propCuts marked)) (hk : ¬ Clocked b) {x j : Nat}
    (hw : ∃ w ∈ allWrites b.stmt, Hits true x j w)
    (hno : ∀ (s q n : Nat) p loc m, LastSupply (eventsAll boxed E.opts.propCuts marked) s q p → σ s q ≠ σ' s q →
      PortNode E.D net p q n → Leaves b.stmt x j loc → m ∈ net.g.nodes → net'.data m = .assignment loc →
      ¬ Reach (CombStep net) n m) : σ x j = σ' x j := by
  refine Classical.byContradiction fun hne => ?_
  obtain ⟨net'', g1, g2, loc, g3, s, q, z, i, who, g4, g5, g6, g7, m, m1, n, n1, m2, n2, hmn⟩ :=
    influence_via_partial h hc hn hm hl hr hf hs hs' hv hv' hb hk hw hne
  rw [hn'] at g1
  cases g1
  obtain ⟨c', _, k1, k2, k3, k4, _, _⟩ := marked_built h hc hn hm hl
  obtain ⟨s'', hw'⟩ := built_of k1 k2 hn'
  obtain ⟨p1, p2, p, p3⟩ := hp s q g4 g5
  obtain ⟨a, ⟨a1, y, bd, a2, a3, a4⟩, m', a5, a6, a7⟩ := port_fetch_of hw' hr.inlets p3 p1 p2 g6 (fetches_sees g7)
  subst g2
  obtain ⟨_, _, _, r, Q, hu, _⟩ := g7
  have : m' = m := text_unique k1 hn' hm.distinct a5 m1 (a6.trans m2.symm) (by rw [m2]; exact use_kind hu)
  subst this
  have hs := edges_justified k1.design k1.visits hn'
  refine hno s q a p loc n p3 g5 ⟨a1, y, bd, a2, a3, ?_⟩ g3 n1 n2 (reach_trans ?_ hmn)
  · show moveData f (net'.data a) = _
    rw [a4]; rfl
  · exact reach_map (f := id) (fun _ _ hj => comb_move ⟨(step_iff_joined hs _ _).2 hj.1, hj.2⟩) a7

/-- C100, from input ports to an output port, in terms of the answers of the tool: if it reports no
combinational loop, and answers every query for a combinational path from a node of an input port with a
changed bit to a node of output port `p` with bit `j` by the empty path, then bit `j` of the output is
the same in both states. Block `b` assigns the inside `x` of the port; the ranges it assigns lie within a
driver of the port and between its cuts. -/
theorem no_path_same_via_partial {V : Type} {M : Meaning V} {E : TravEnv} {boxed : Str → Str → Bool}
    {ord : Tracker → List (Nat × Nat)} {top marked : List Member} {f : TextLoc → TextLoc}
    (h : Buildable E boxed ord top) {c : Col} {net : NetGraph} (hc : phase1 E top = .ok c)
    (hn : netlist E ord top = .ok net) (hm : Marked boxed E.opts.propCuts f marked top) (hl : combLoops net = [])
    {via : Nat → Nat → Nat × Nat}
    (hr : RegularVia E (eventsAll boxed E.opts.propCuts marked) c.cuts via)
    (hf : Faithful M E (eventsAll boxed E.opts.propCuts marked)) {σ σ' : Vals V}
    (hs : Solves M E (eventsAll boxed E.opts.propCuts marked) σ)
    (hs' : Solves M E (eventsAll boxed E.opts.propCuts marked) σ')
    (hv : Shared E (eventsAll boxed E.opts.propCuts marked) via σ)
    (hv' : Shared E (eventsAll boxed E.opts.propCuts marked) via σ')
    (hp : ∀ s q, OuterSource E (eventsAll boxed E.opts.propCuts marked) c.cuts via s q → σ s q ≠ σ' s q →
      Bare (eventsAll boxed E.opts.propCuts marked) s ∧ E.D.kind s ≠ .modportPort ∧
        ∃ p, LastSupply (eventsAll boxed E.opts.propCuts marked) s q p) {b : Deferred}
    (hb : b ∈ blocksOf (eventsAll boxed E.opts.propCuts marked)) (hk : ¬ Clocked b) {x j : Nat}
    (hw : ∃ w ∈ allWrites b.stmt, Hits true x j w) {p : PortDecl}
    (hpo : .port p ∈ eventsAll boxed E.opts.propCuts marked) (hx : E.D.port x = some p.sym) {lo hi : Int}
    (hsp : Spans E c.cuts p x lo hi)
    (hin : ∀ w ∈ allWrites b.stmt, w.sym = x → InRng w.bounds j → lo ≤ w.bounds.lower ∧ w.bounds.upper ≤ hi)
    (hno : ∀ (s q n m : Nat) p', LastSupply (eventsAll boxed E.opts.propCuts marked) s q p' → σ s q ≠ σ' s q →
      PortNode E.D net p' q n → PortNode E.D net p j m → findComb net n m = some []) : σ x j = σ' x j := by
  obtain ⟨c', net', k1, k2, k3, k4, k5, k6⟩ := marked_built h hc hn hm hl
  obtain ⟨s'', hw'⟩ := built_of k1 k2 k4
  have hj := edges_justified k1.design k1.visits k4
  have hj' := edges_justified h.design h.visits hn
  refine no_path_via_partial h hc hn hm hl k4 hr hf hs hs' hv hv' hp hb hk hw ?_
  intro s q n p' loc m a1 a2 a3 a4 a5 a6 hreach
  obtain ⟨e, e1, e2, e3, k, e4, e5, e6, _⟩ := leave_port hw' hb a4 hin hpo hx (k3 ▸ hsp)
  subst k5
  have : k = m := text_unique k1 k4 hm.distinct e4 a5 ((e6 hk).trans a6.symm) (by rw [a6]; exact .inl rfl)
  subst this
  have hen := (hw'.walk.eff.fine.ok.vars p.sym e e1).1
  have hdat : net'.data e.val = .port (E.D.ref x).name (E.D.ref x).path (E.D.ref x).loc p.dir ⟨e.lo, e.hi⟩ := by
    rw [hw'.early.data _ hen, (port_at hw'.walk hpo).2.1 x hsp.1 e e1]; rfl
  have hstep : CombStep (moveNet f net') k e.val :=
    comb_move ⟨(step_iff_joined hj _ _).2 e5, by rw [NetGraph.kind, hdat]; simp [NodeData.kind]⟩
  have hpn : PortNode E.D (moveNet f net') p j e.val := by
    refine ⟨hw'.early.nodes _ hen, x, ⟨e.lo, e.hi⟩, hsp.1, (inRng_iff _ _).2 ?_, ?_⟩
    · simp only [BitRange.lower, BitRange.upper]; omega
    · show moveData f (net'.data e.val) = _
      rw [hdat]; rfl
  have hq := hno s q n e.val p' a1 a2 a3 hpn
  have hne : n ≠ e.val := by
    intro he
    subst he
    exact (loops_cover_cycles_partial _ hj'.1).2.1 hl _ a3.1 ⟨k, hreach, hstep⟩
  obtain ⟨path, g1, _, g3⟩ := comb_path_answers h.design h.visits hn a3.1 hne
  rw [hq] at g1
  cases g1
  exact g3 rfl (hreach.tail hstep)

/-! ### A concrete design
```
interface I; logic [7:0] m; modport p(output m); modport c(input m); endinterface
module prod(I.p i, input [7:0] x); assign i.m = x; endmodule          // line 1
module cons(I.c i, output [7:0] y); assign y = i.m; endmodule         // line 2
module t(input [7:0] a, c, output [7:0] y, w); I i();
  wire [7:0] z; assign z = i.m;                                       // line 3
  assign w = c;                                                       // line 5
  ... snk k(.v(i.m));                                                 // in module cons
module snk(input [7:0] v); wire [7:0] u; assign u = v; endmodule      // line 6
```
The insides of the ports are the signals 0, 3, 1 and 4, `z` is signal 2, the inside of `v` and `u` are the signals 5 and 6, the modport ports are the signals 30 and 31,
and the variable `m` is signal 32. -/

def ivD : Design where
  ref := hdD.ref
  kind n := if n = 30 ∨ n = 31 then .modportPort else if n = 32 then .variable else .other
  width := hdD.width
  port := hdD.port
  iface n _ := if n = 30 ∨ n = 31 then [(32, ⟨0, 7⟩)] else []

def ivE : TravEnv := { hdE with D := ivD }

def ivB4 : Deferred := .continuous (ln 6) (.aligned [⟨[dsRef 6], [.lsp (dsRef 5)], ln 6⟩])
def ivW : Conn := ⟨.port 24 (some 5), some (hdWhole 31), false, true⟩

def ivTop : List Member := [.inst false ['t'] ['t'] [.port (hdIn 20 0), .port (hdIn 22 3), .port (hdOut 21 1),
  .port (hdOut 23 4), .inst false ['I'] ['t', '.', 'i'] [.variable 32 true [(0, 7)]] [],
  .block ipB1, .block ipB2, .block ipB3, .block ifB3,
  .inst false ['k'] ['t', '.', 'k'] [.port (hdIn 24 5), .block ivB4] [ivW]] []]

def ivEvents : List Event := [.port (hdIn 20 0), .port (hdIn 22 3), .port (hdOut 21 1), .port (hdOut 23 4),
  .variable 32 [(0, 7)], .block ipB1, .block ipB2, .block ipB3, .block ifB3, .cuts ivW, .port (hdIn 24 5), .block ivB4,
  .connect ivW]

def ivCol : Col := (phase1 ivE ivTop).toOption.getD {}
def ivNet : NetGraph := (netlist ivE Tracker.slots ivTop).toOption.getD {}

theorem iv_events : eventsAll hdBoxed ivE.opts.propCuts ivTop = ivEvents := by
  show eventsAll hdBoxed true ivTop = ivEvents
  simp [ivTop, eventsAll, events, hdBoxed, ivEvents]

theorem iv_blocks : blocksOf ivEvents = [ipB1, ipB2, ipB3, ifB3, ivB4] := rfl

theorem iv_elab : Elaborated ivE hdBoxed ivTop where
  boxes := by simp [DecidesBoxes, Boxed, hdBoxed, ivE, hdE]
  ok := by
    rw [iv_events]
    simp [ivEvents, EventOk, hdIn, hdOut, PortDriver.hi, ivE, ivD, hdE, hdD, ivW, hdWhole, WT]
  once := by
    rw [iv_events]
    show [20, 22, 21, 23, 32, 24].Nodup
    decide

theorem iv_phase1 : phase1 ivE ivTop = .ok ivCol := by
  obtain ⟨c, h, _⟩ := phase1_total_partial iv_elab
  rw [ivCol, h]; rfl

theorem iv_build : Buildable ivE hdBoxed Tracker.slots ivTop where
  design := iv_elab
  plain := by
    intro c hc
    rw [iv_phase1] at hc
    exact Except.ok.inj hc ▸
      plain_of_two (lo := 0) (mid := 3) (hi := 7) (by decide) (by decide) (by decide +kernel) (by decide) (by decide)
  live := by
    rw [iv_events, iv_blocks]
    intro b hb; simp at hb; rcases hb with rfl | rfl | rfl | rfl | rfl <;> decide
  events := by
    rw [iv_events, iv_blocks]
    intro b hb; simp at hb
    rcases hb with rfl | rfl | rfl | rfl | rfl <;> trivial
  visits := fun _ => List.Perm.refl _
  ports := by
    rw [iv_events, iv_blocks]
    have : ∀ b ∈ [ipB1, ipB2, ipB3, ifB3, ivB4], ∀ w ∈ allWrites b.stmt, w.sym < 20 ∨ w.sym = 30 := by
      intro b hb; simp at hb; rcases hb with rfl | rfl | rfl | rfl | rfl <;> decide
    intro p hp b hb w hw
    have := this b hb w hw
    simp [ivEvents, hdIn, hdOut] at hp
    rcases hp with rfl | rfl | rfl | rfl | rfl <;> simp only <;> omega

theorem iv_net : netlist ivE Tracker.slots ivTop = .ok ivNet := by
  obtain ⟨_, _, net, _, _, _, _, h, _⟩ := netlist_total_partial iv_build
  rw [ivNet, h]; rfl

theorem iv_marked : Marked hdBoxed ivE.opts.propCuts id ivTop ivTop :=
  ⟨rfl, distinct_of_nodup (by rw [iv_events]; decide +kernel)⟩

theorem iv_clocked {b : Deferred} (hb : b ∈ [ipB1, ipB2, ipB3, ifB3, ivB4]) : ¬ Clocked b := by
  rintro ⟨⟨v, hv, _⟩, _⟩
  simp at hb
  rcases hb with rfl | rfl | rfl | rfl | rfl <;> cases hv

theorem iv_bare {y : Nat} (h : y < 20) : Bare ivEvents y := by
  refine ⟨fun ev hev hy => ?_, fun b hb hc => absurd hc (iv_clocked hb)⟩
  simp [ivEvents] at hev
  rcases hev with rfl | rfl | rfl | rfl | rfl | rfl | rfl | rfl | rfl | rfl | rfl | rfl | rfl <;> simp [declares, hdIn, hdOut] at hy <;> omega

theorem iv_on {y : Nat} : OnIface ivE ivEvents y ↔ y = 30 ∨ y = 31 ∨ y = 32 := by
  constructor
  · rintro (h | ⟨ds, h⟩)
    · by_cases h1 : y = 30 ∨ y = 31
      · omega
      · by_cases h2 : y = 32 <;> simp [ivE, ivD, h1, h2] at h
    · simp [ivEvents] at h; omega
  · rintro (rfl | rfl | rfl)
    · exact .inl rfl
    · exact .inl rfl
    · exact .inr ⟨[(0, 7)], by simp [ivEvents]⟩

theorem iv_conn {p : PortDecl} {k : Conn} (h : Before ivEvents p k) : k = ivW := by
  have := (before_mem h).2
  simpa [ivEvents] using this

theorem iv_tied {p : PortDecl} {k : Conn} {j y q : Nat} (h : Tied ivE ivEvents p k j y q) :
    k = ivW ∧ p = hdIn 24 5 ∧ y = 31 ∧ q = j := by
  obtain ⟨h1, _, ⟨i, h2⟩, e, h3, h4⟩ := h
  have hp := (before_mem h1).1
  have := iv_conn h1
  subst this
  cases h3
  simp [ivW] at h2
  have hp : p = hdIn 24 5 := by
    simp [ivEvents] at hp
    rcases hp with rfl | rfl | rfl | rfl | rfl <;> simp [hdIn, hdOut] at h2 ⊢
  refine ⟨rfl, hp, ?_⟩
  subst hp
  rcases h4 with ⟨_, h4⟩ | ⟨h4, _⟩
  · simp [hdWhole, Routes, LspPath.extra, pathsList, AnyCovers] at h4
    omega
  · exact absurd ⟨rfl, rfl, rfl⟩ h4

theorem iv_before : Before ivEvents (hdIn 24 5) ivW :=
  ⟨[.port (hdIn 20 0), .port (hdIn 22 3), .port (hdOut 21 1), .port (hdOut 23 4), .variable 32 [(0, 7)], .block ipB1,
    .block ipB2, .block ipB3, .block ifB3, .cuts ivW], [.block ivB4], [], rfl⟩

theorem iv_ties (j : Nat) : Tied ivE ivEvents (hdIn 24 5) ivW j 31 j := by
  refine ⟨iv_before, ?_, ⟨_, rfl⟩, _, rfl, .inl ⟨⟨rfl, rfl, rfl⟩, .inl ⟨rfl, rfl, (Nat.zero_add j).symm⟩⟩⟩
  rintro s i e h1 h2 _; cases h1; cases h2
  exact ⟨by simp [Static, hdWhole, pathsList], by simp [ivW]⟩

theorem iv_supply {j : Nat} (hj : j ≤ 7) : LastSupply ivEvents 5 j (hdIn 24 5) :=
  ⟨[.port (hdIn 20 0), .port (hdIn 22 3), .port (hdOut 21 1), .port (hdOut 23 4), .variable 32 [(0, 7)], .block ipB1,
    .block ipB2, .block ipB3, .block ifB3, .cuts ivW], [.block ivB4, .connect ivW], rfl, ⟨rfl, ⟨0, 7, true⟩, by simp [hdIn], rfl, by simp, hj⟩, by simp⟩

theorem iv_supplied {x j : Nat} (h : LastSupply ivEvents x j (hdIn 24 5)) : x = 5 ∧ j ≤ 7 := by
  obtain ⟨_, _, _, ⟨h1, d, h2, _, _, h3⟩, _⟩ := h
  simp [hdIn] at h1 h2
  subst h2
  exact ⟨h1.symm, h3⟩

theorem iv_inlet {y q x j : Nat} (h : Inlet ivE ivEvents y q x j) : y = 31 ∧ q = j ∧ x = 5 ∧ j ≤ 7 := by
  obtain ⟨p, k, _, h1, h2⟩ := h
  obtain ⟨rfl, rfl, rfl, rfl⟩ := iv_tied h1
  exact ⟨rfl, rfl, iv_supplied h2⟩

theorem iv_inlets {j : Nat} (hj : j ≤ 7) : Inlet ivE ivEvents 31 j 5 j := ⟨_, _, rfl, iv_ties j, iv_supply hj⟩

theorem iv_no_out {p : PortDecl} {k : Conn} (h : Before ivEvents p k) (ho : k.output = true) : False := by
  rw [iv_conn h] at ho; cases ho

theorem iv_no_up {prev : Option Conn} {x y j q : Nat} {lo hi : Int} {cuts : CutReg} :
    ¬ Up ivE ivEvents cuts prev x lo hi j y q := by
  intro h
  cases h with
  | one h => obtain ⟨p, ho, h, _⟩ := h; exact iv_no_out h.1 ho
  | more h _ => obtain ⟨p, ho, h, _⟩ := h; exact iv_no_out h.1 ho

theorem iv_assigned {y q : Nat} {cuts : CutReg} (h : Assigned ivE ivEvents cuts y q) : y < 20 ∨ y = 30 := by
  obtain ⟨b, hb, _, x, j, ⟨w, hw, _, hx, _⟩, h⟩ := h
  rcases h with ⟨_, rfl, _⟩ | ⟨_, _, _, h⟩
  · have : ∀ b ∈ [ipB1, ipB2, ipB3, ifB3, ivB4], ∀ w ∈ allWrites b.stmt, w.sym < 20 ∨ w.sym = 30 := by
      intro b hb; simp at hb; rcases hb with rfl | rfl | rfl | rfl | rfl <;> decide
    rw [← hx]; exact this b hb w hw
  · exact absurd h iv_no_up

def ivVia (y q : Nat) : Nat × Nat := if y = 30 ∨ y = 31 then (32, q) else (y, q)

theorem iv_driven {q : Nat} {d : Nat × Nat} (h : DrivenRange ivEvents 32 q d) : d = (0, 7) := by
  obtain ⟨_, _, ds, h1, h2⟩ := h
  simp [ivEvents] at h1
  subst h1
  simpa using h2

theorem iv_regular (cuts : CutReg) : RegularVia ivE ivEvents cuts ivVia where
  comb := by
    intro b hb _
    rw [iv_blocks] at hb; simp at hb
    rcases hb with rfl | rfl | rfl | rfl | rfl <;> exact comb_single (by decide)
  settled := by
    intro b hb _
    rw [iv_blocks] at hb; simp at hb
    rcases hb with rfl | rfl | rfl | rfl | rfl <;> exact settled_apart (by decide) (by decide)
  complete := by
    intro b hb _ x p ⟨w, hw, hh⟩ tr ht
    rw [iv_blocks] at hb; simp at hb
    rcases hb with rfl | rfl | rfl | rfl | rfl <;> cases ht <;> exact ⟨w, hw, hh⟩
  assigned := by
    intro y q h
    rcases iv_assigned h with h | rfl
    · refine .inr ⟨iv_bare h, fun hk => ?_⟩
      have := iv_on.1 (.inl hk)
      omega
    · exact .inl (iv_on.2 (.inl rfl))
  inlets := by
    intro y q x j h
    obtain ⟨_, _, rfl, _⟩ := iv_inlet h
    exact ⟨iv_bare (by decide), by decide⟩
  wired := by
    intro p k x j y q _ h hl _
    obtain ⟨rfl, rfl, rfl, rfl⟩ := iv_tied h
    refine ⟨[(0, 7)], (0, 7), by simp [ivEvents, ivVia], by simp, by simp, ?_, rfl, iv_before, ⟨_, rfl⟩,
      .inl ⟨?_, 31, q, h.2.1, h.2.2, by decide, fun _ => List.mem_singleton.2 rfl⟩⟩
    · simp only [ivVia]
      have := (iv_supplied hl).2
      simpa using this
    · exact ⟨[.port (hdIn 20 0), .port (hdIn 22 3), .port (hdOut 21 1), .port (hdOut 23 4)], [.block ipB1,
        .block ipB2, .block ipB3, .block ifB3, .cuts ivW, .port (hdIn 24 5), .block ivB4], [], rfl⟩
  outlets := fun p k e h ho => (iv_no_out h ho).elim
  inside := by
    rintro x j y q ⟨p, k, e, ho, h, _⟩
    exact (iv_no_out h.1 ho).elim
  nested := ⟨fun x => if x = 5 then 1 else 0, fun y q x j h => by
    obtain ⟨rfl, _, rfl, _⟩ := iv_inlet h
    decide⟩
  reads := by
    intro b hb _ who r Q hu hon i hi hno
    have hr := use_in hu
    rw [iv_on] at hon
    rw [iv_blocks] at hb; simp at hb
    have : ∀ n, r = dsRef n → n = 31 ∨ n = 32 → ∃ d, DrivenRange ivEvents (ivVia r.sym i).1 (ivVia r.sym i).2 d ∧
        TakesFrom ivE.D r Q ((ivVia r.sym i).1, ⟨d.1, (d.1 : Int) + d.2⟩) := by
      rintro n rfl hn
      have hi' : 0 ≤ (i : Int) ∧ (i : Int) ≤ 7 := eight.1 hi
      rcases hn with rfl | rfl
      · exact ⟨(0, 7), ⟨by simp, by simp [ivVia, dsRef]; omega, [(0, 7)], by simp [ivEvents, ivVia, dsRef], by simp⟩,
          .inl ⟨rfl, List.mem_singleton.2 rfl, i, hi, hno⟩⟩
      · refine ⟨(0, 7), ⟨by simp, by simp [ivVia, dsRef]; omega, [(0, 7)], by simp [ivEvents, ivVia, dsRef], by simp⟩,
          .inr ⟨by decide, rfl, rfl, fun p _ tr ht w hw hh => ?_⟩⟩
        obtain ⟨u, v, g1, rfl, g3⟩ := use_paths hu tr ht
        cases g1
        have : ∀ b ∈ [ipB1, ipB2, ipB3, ifB3, ivB4], ∀ w ∈ allWrites b.stmt, w.sym ≠ 32 := by
          intro b hb; simp at hb; rcases hb with rfl | rfl | rfl | rfl | rfl <;> decide
        exact this b (by simpa using hb) w (g3 w hw) hh.2.1
    rcases hb with rfl | rfl | rfl | rfl | rfl <;> simp [ipB1, ipB2, ipB3, ifB3, ivB4, Deferred.stmt, readsOf] at hr <;> subst hr
    · simp [dsRef] at hon
    · exact this 31 rfl (.inl rfl)
    · exact this 32 rfl (.inr rfl)
    · simp [dsRef] at hon
    · simp [dsRef] at hon
  writes := by
    intro b hb _ y i ⟨w, hw, _, hy, _⟩ hon d hd
    rw [iv_on] at hon
    have h30 : y = 30 := by
      have : ∀ b ∈ [ipB1, ipB2, ipB3, ifB3, ivB4], ∀ w ∈ allWrites b.stmt, w.sym < 20 ∨ w.sym = 30 := by
        intro b hb; simp at hb; rcases hb with rfl | rfl | rfl | rfl | rfl <;> decide
      have := this b hb w hw
      omega
    subst h30
    have : d = (0, 7) := iv_driven (q := (ivVia 30 i).2) hd
    subst this
    exact .inl ⟨rfl, fun e => List.mem_singleton.2 rfl⟩
  clocks := fun x ds _ b hb hc => absurd hc (iv_clocked hb)

/-- What the lines compute. -/
def ivM : Meaning Bool where
  value := fun loc ρ _ p => decide (0 ≤ p ∧ p ≤ 7) && if loc.line = 1 then ρ 0 p else if loc.line = 2 then ρ 31 p
    else if loc.line = 3 then ρ 32 p else if loc.line = 5 then ρ 3 p else
    if loc.line = 6 then ρ 5 p else false
  pick := fun _ _ ρ _ => ρ 3 0
  feed := fun x j ρ => decide (x = 5 ∧ j ≤ 7) && ρ 31 j

/-- The state in which all bits of `a` are `v`, and those of `c` are 1. -/
def ivVals (v : Bool) : Vals Bool := fun x p =>
  decide (0 ≤ p ∧ p ≤ 7) && if x = 3 ∨ x = 4 then true else decide (x < 3 ∨ x = 5 ∨ x = 6 ∨ 30 ≤ x ∧ x ≤ 32) && v

theorem iv_shared (v : Bool) : Shared ivE ivEvents ivVia (ivVals v) := by
  intro y i h
  rcases iv_on.1 h with rfl | rfl | rfl <;> rfl

theorem iv_faithful : Faithful ivM ivE ivEvents where
  blocks := by
    intro b hb _
    rw [iv_blocks] at hb; simp at hb
    rcases hb with rfl | rfl | rfl | rfl | rfl <;> intro l hl <;> simp [asgLocs] at hl <;> subst hl
    · exact looks_lsp (g := ⟨[dsRef 30], [.lsp (dsRef 0)], ln 1⟩) (n := 0) (by simp) (by simp) (fun _ _ _ => by simp [ivM, ln])
    · exact looks_lsp (g := ⟨[dsRef 1], [.lsp (dsRef 31)], ln 2⟩) (n := 31) (by simp) (by simp) (fun _ _ _ => by simp [ivM, ln])
    · exact looks_lsp (g := ⟨[dsRef 2], [.lsp (dsRef 32)], ln 3⟩) (n := 32) (by simp) (by simp) (fun _ _ _ => by simp [ivM, ln])
    · exact looks_lsp (g := ⟨[dsRef 4], [.lsp (dsRef 3)], ln 5⟩) (n := 3) (by simp) (by simp) (fun _ _ _ => by simp [ivM, ln])
    · exact looks_lsp (g := ⟨[dsRef 6], [.lsp (dsRef 5)], ln 6⟩) (n := 5) (by simp) (by simp) (fun _ _ _ => by simp [ivM, ln])
  inlets := by
    intro x j ρ ρ' h
    by_cases hx : x = 5 ∧ j ≤ 7
    · obtain ⟨rfl, hj⟩ := hx
      simp only [ivM]
      rw [h 31 j ⟨j, rfl, iv_inlets hj⟩]
    · simp only [ivM, decide_eq_false hx, Bool.false_and]

theorem iv_solves (v : Bool) : Solves ivM ivE ivEvents (ivVals v) where
  blocks := by
    intro b hb _ x p ⟨w, hw, hh⟩
    obtain ⟨_, h1, h2⟩ := hh
    rw [iv_blocks] at hb; simp at hb
    rcases hb with rfl | rfl | rfl | rfl | rfl <;>
      simp [ipB1, ipB2, ipB3, ifB3, ivB4, Deferred.stmt, allWrites, asgWrites, dsRef] at hw <;> subst hw <;>
      have h3 := eight.1 h2 <;> simp only at h1 <;> subst h1 <;>
      simp [ipB1, ipB2, ipB3, ifB3, ivB4, Deferred.stmt, run, store, asgWrites, dsRef, ivM, ivVals, BitRange.lower,
        BitRange.upper, ln, h3]
  inlets := by
    intro y q x j h
    obtain ⟨rfl, rfl, rfl, hj⟩ := iv_inlet h
    have : (0 : Int) ≤ q ∧ (q : Int) ≤ 7 := by omega
    simp [ivM, ivVals, hj, this]
  outlets := by
    rintro x j y q ⟨p, k, e, ho, h, _⟩
    exact (iv_no_out h.1 ho).elim

theorem iv_loops : combLoops ivNet = [] := by decide +kernel

/-- Output `y` differs between the states, so there is a path through the interface. -/
example : ∃ net', netlist ivE Tracker.slots ivTop = .ok net' ∧ ivNet = moveNet id net' ∧
    ∃ loc, Leaves ipB2.stmt 1 0 loc ∧ ∃ s q z i who,
      OuterSource ivE (eventsAll hdBoxed ivE.opts.propCuts ivTop) ivCol.cuts ivVia s q ∧
      ivVals false s q ≠ ivVals true s q ∧
      Brings ivE (eventsAll hdBoxed ivE.opts.propCuts ivTop) s q z i ∧
      Fetches (eventsAll hdBoxed ivE.opts.propCuts ivTop) z i who ∧
      ∃ m ∈ ivNet.g.nodes, ∃ n ∈ ivNet.g.nodes, net'.data m = who ∧ net'.data n = .assignment loc ∧
        Reach (CombStep ivNet) m n :=
  influence_via_partial (M := ivM) iv_build iv_phase1 iv_net iv_marked iv_loops (by rw [iv_events]; exact iv_regular _)
    (by rw [iv_events]; exact iv_faithful) (by rw [iv_events]; exact iv_solves false)
    (by rw [iv_events]; exact iv_solves true) (by rw [iv_events]; exact iv_shared false)
    (by rw [iv_events]; exact iv_shared true) (b := ipB2) (by rw [iv_events, iv_blocks]; simp) (iv_clocked (by simp))
    ⟨⟨1, ⟨0, 7⟩, ln 2, true⟩, by decide, rfl, rfl, eight.2 (by decide)⟩ (by decide)

/-- So does the wire `u` of the instance whose input port is connected to the interface. -/
example : ∃ net', netlist ivE Tracker.slots ivTop = .ok net' ∧ ivNet = moveNet id net' ∧
    ∃ loc, Leaves ivB4.stmt 6 0 loc ∧ ∃ s q z i who,
      OuterSource ivE (eventsAll hdBoxed ivE.opts.propCuts ivTop) ivCol.cuts ivVia s q ∧
      ivVals false s q ≠ ivVals true s q ∧
      Brings ivE (eventsAll hdBoxed ivE.opts.propCuts ivTop) s q z i ∧
      Fetches (eventsAll hdBoxed ivE.opts.propCuts ivTop) z i who ∧
      ∃ m ∈ ivNet.g.nodes, ∃ n ∈ ivNet.g.nodes, net'.data m = who ∧ net'.data n = .assignment loc ∧
        Reach (CombStep ivNet) m n :=
  influence_via_partial (M := ivM) iv_build iv_phase1 iv_net iv_marked iv_loops (by rw [iv_events]; exact iv_regular _)
    (by rw [iv_events]; exact iv_faithful) (by rw [iv_events]; exact iv_solves false)
    (by rw [iv_events]; exact iv_solves true) (by rw [iv_events]; exact iv_shared false)
    (by rw [iv_events]; exact iv_shared true) (b := ivB4) (by rw [iv_events, iv_blocks]; simp) (iv_clocked (by simp))
    ⟨⟨6, ⟨0, 7⟩, ln 6, true⟩, by decide, rfl, rfl, eight.2 (by decide)⟩ (by decide)

theorem iv_assigns {b : Deferred} (hb : b ∈ [ipB1, ipB2, ipB3, ifB3, ivB4]) {y q : Nat} {loc : TextLoc} {cuts : CutReg}
    (h : (⟨y, ⟨0, 7⟩, loc, true⟩ : Wr) ∈ allWrites b.stmt) (hq : q ≤ 7) : Assigned ivE ivEvents cuts y q :=
  ⟨b, hb, iv_clocked hb, y, q, ⟨_, h, rfl, rfl, eight.2 (by omega)⟩, .inl ⟨iv_clocked hb, rfl, rfl⟩⟩

theorem iv_sources {s q : Nat} {cuts : CutReg} (h : OuterSource ivE ivEvents cuts ivVia s q)
    (hne : ivVals false s q ≠ ivVals true s q) : s = 0 ∧ q ≤ 7 := by
  have h0 : (s < 3 ∨ s = 5 ∨ s = 6 ∨ 30 ≤ s ∧ s ≤ 32) ∧ q ≤ 7 := by
    have : ¬ ¬ ((s < 3 ∨ s = 5 ∨ s = 6 ∨ 30 ≤ s ∧ s ≤ 32) ∧ q ≤ 7) := by
      intro hc
      apply hne
      unfold ivVals
      by_cases h1 : s < 3 ∨ s = 5 ∨ s = 6 ∨ 30 ≤ s ∧ s ≤ 32
      · rw [decide_eq_false (by omega : ¬ (0 ≤ (q : Int) ∧ (q : Int) ≤ 7))]
        rfl
      · simp [h1]
    omega
  obtain ⟨⟨h1, h3⟩, h2⟩ := h
  have g5 : s ≠ 5 := by
    rintro rfl
    exact h3 _ _ (iv_inlets h0.2)
  have g6 : s ≠ 6 := by
    rintro rfl
    exact h1 (iv_assigns (b := ivB4) (loc := ln 6) (by simp) (by decide) h0.2)
  have g0 : Assigned ivE ivEvents cuts 30 q := iv_assigns (b := ipB1) (loc := ln 1) (by simp) (by decide) h0.2
  have g1 : s ≠ 1 := by
    rintro rfl
    exact h1 (iv_assigns (b := ipB2) (loc := ln 2) (by simp) (by decide) h0.2)
  have g2 : s ≠ 2 := by
    rintro rfl
    exact h1 (iv_assigns (b := ipB3) (loc := ln 3) (by simp) (by decide) h0.2)
  have g3 : ¬ (30 ≤ s ∧ s ≤ 32) := by
    intro hs
    refine h2 (iv_on.2 (by omega)) 30 q (iv_on.2 (.inl rfl)) ?_ g0
    have : s = 30 ∨ s = 31 ∨ s = 32 := by omega
    rcases this with rfl | rfl | rfl <;> rfl
  omega

theorem iv_inputs : ∀ s q, OuterSource ivE (eventsAll hdBoxed ivE.opts.propCuts ivTop) ivCol.cuts ivVia s q →
    ivVals false s q ≠ ivVals true s q → Bare (eventsAll hdBoxed ivE.opts.propCuts ivTop) s ∧
      ivE.D.kind s ≠ .modportPort ∧ ∃ p, LastSupply (eventsAll hdBoxed ivE.opts.propCuts ivTop) s q p := by
  rw [iv_events]
  intro s q h hne
  obtain ⟨rfl, hq⟩ := iv_sources h hne
  refine ⟨iv_bare (by decide), by decide, hdIn 20 0, [], _, rfl, ⟨rfl, ⟨0, 7, true⟩, by simp [hdIn], rfl, by simp, hq⟩, ?_⟩
  intro p hp hs
  simp at hp
  rcases hp with rfl | rfl | rfl | rfl <;> simp [Supplies, hdIn, hdOut] at hs

theorem iv_in {s q : Nat} {p : PortDecl} (h : LastSupply ivEvents s q p) (hs : s ≠ 3) :
    (s = 0 ∧ p = hdIn 20 0) ∨ (s = 5 ∧ p = hdIn 24 5) := by
  obtain ⟨pre, post, h1, h2, _⟩ := h
  have hm : Event.port p ∈ ivEvents := h1 ▸ by simp
  simp [ivEvents] at hm
  obtain ⟨a1, d, a2, a3, _⟩ := h2
  rcases hm with rfl | rfl | rfl | rfl | rfl <;> simp [hdIn, hdOut] at a1 a2 <;> subst a2
  · exact .inl ⟨a1.symm, rfl⟩
  · omega
  · cases a3
  · cases a3
  · exact .inr ⟨a1.symm, rfl⟩

/-- There is no path from port `a` to port `w`, so `w` is the same in both states. -/
example : ivVals false 4 0 = ivVals true 4 0 :=
  no_path_same_via_partial (M := ivM) iv_build iv_phase1 iv_net iv_marked iv_loops (via := ivVia)
    (by rw [iv_events]; exact iv_regular _) (by rw [iv_events]; exact iv_faithful)
    (by rw [iv_events]; exact iv_solves false) (by rw [iv_events]; exact iv_solves true)
    (by rw [iv_events]; exact iv_shared false) (by rw [iv_events]; exact iv_shared true) iv_inputs (b := ifB3)
    (by rw [iv_events, iv_blocks]; simp) (iv_clocked (by simp))
    ⟨⟨4, ⟨0, 7⟩, ln 5, true⟩, by decide, rfl, rfl, eight.2 (by decide)⟩ (p := hdOut 23 4)
    (by rw [iv_events]; simp [ivEvents]) rfl (lo := 0) (hi := 7)
    ⟨rfl, by decide, ⟨⟨0, 7, false⟩, by simp [hdOut], by decide, by decide⟩,
      fun _ l hl => by rw [(by decide +kernel : ivCol.cuts 4 = none)] at hl; cases hl⟩
    (by intro w hw _ _; simp [ifB3, Deferred.stmt, allWrites, asgWrites, dsRef] at hw; subst hw; decide)
    (by
      rw [iv_events]
      intro s q n m p' h1 h2 h3 h4
      have hs : s ≠ 3 := by rintro rfl; exact h2 rfl
      obtain ⟨n1, x, b, hx, _, n2⟩ := h3
      obtain ⟨m1, y, b', hy, _, m2⟩ := h4
      have hno : ∀ n ∈ ivNet.g.nodes, ∀ m ∈ ivNet.g.nodes, portName (ivNet.data n) = some ['a'] ∨
        portName (ivNet.data n) = some ['f'] → portName (ivNet.data m) = some ['e'] → findComb ivNet n m = some [] := by
        decide +kernel
      cases hy
      rcases iv_in h1 hs with ⟨rfl, rfl⟩ | ⟨rfl, rfl⟩
      · cases hx
        exact hno n n1 m m1 (.inl (by rw [n2]; rfl)) (by rw [m2]; rfl)
      · cases hx
        exact hno n n1 m m1 (.inr (by rw [n2]; rfl)) (by rw [m2]; rfl))

/-! A loop through the interface: `assign i.m = y;` on one side, `assign y = i.m;` on the other. -/

def lpB1 : Deferred := .continuous (ln 1) (.aligned [⟨[dsRef 30], [.lsp (dsRef 1)], ln 1⟩])

def lpTop : List Member := [.inst false ['t'] ['t'] [
  .inst false ['I'] ['t', '.', 'i'] [.variable 32 true [(0, 7)]] [], .block lpB1, .block ipB2] []]

def lpEvents : List Event := [.variable 32 [(0, 7)], .block lpB1, .block ipB2]

def lpCol : Col := (phase1 ivE lpTop).toOption.getD {}
def lpNet : NetGraph := (netlist ivE Tracker.slots lpTop).toOption.getD {}

theorem lp_events : eventsAll hdBoxed ivE.opts.propCuts lpTop = lpEvents := by
  show eventsAll hdBoxed true lpTop = lpEvents
  simp [lpTop, eventsAll, events, hdBoxed, lpEvents]

theorem lp_elab : Elaborated ivE hdBoxed lpTop where
  boxes := by simp [DecidesBoxes, Boxed, hdBoxed, ivE, hdE]
  ok := by
    rw [lp_events]
    simp [lpEvents, EventOk, ivE, ivD, hdE, hdD]
  once := by
    rw [lp_events]
    show [32].Nodup
    decide

theorem lp_phase1 : phase1 ivE lpTop = .ok lpCol := by
  obtain ⟨c, h, _⟩ := phase1_total_partial lp_elab
  rw [lpCol, h]; rfl

theorem lp_build : Buildable ivE hdBoxed Tracker.slots lpTop where
  design := lp_elab
  plain := by
    intro c hc
    rw [lp_phase1] at hc
    exact Except.ok.inj hc ▸
      plain_of_two (lo := 0) (mid := 3) (hi := 7) (by decide) (by decide) (by decide +kernel) (by decide) (by decide)
  live := by
    rw [lp_events]
    intro b hb; simp [blocksOf, lpEvents] at hb; rcases hb with rfl | rfl <;> decide
  events := by
    rw [lp_events]
    intro b hb; simp [blocksOf, lpEvents] at hb
    rcases hb with rfl | rfl <;> trivial
  visits := fun _ => List.Perm.refl _
  ports := by
    rw [lp_events]
    intro p hp
    simp [lpEvents] at hp

theorem lp_net : netlist ivE Tracker.slots lpTop = .ok lpNet := by
  obtain ⟨_, _, net, _, _, _, _, h, _⟩ := netlist_total_partial lp_build
  rw [lpNet, h]; rfl

theorem lp_marked : Marked hdBoxed ivE.opts.propCuts id lpTop lpTop :=
  ⟨rfl, distinct_of_nodup (by rw [lp_events]; decide +kernel)⟩

theorem lp_clocked {b : Deferred} (hb : b ∈ [lpB1, ipB2]) : ¬ Clocked b := by
  rintro ⟨⟨v, hv, _⟩, _⟩
  simp at hb
  rcases hb with rfl | rfl <;> cases hv

theorem lp_cycle (cuts : CutReg) : OnCycle (Passes ivE lpEvents cuts) (.assignment (ln 1)) := by
  refine ⟨.assignment (ln 2), Reach.refl.tail ?_, ?_⟩
  · refine .iface (b := lpB1) (y := 30) (j := 0) (by simp [blocksOf, lpEvents]) (lp_clocked (by simp)) ?_
      (.read (b2 := ipB2) (x := 32) (ds := [(0, 7)]) (d := (0, 7)) (r := dsRef 31)
      (Q := Start) (by simp [lpEvents]) (by simp)
      (fun b hb hc => absurd hc (lp_clocked hb)) (.inl ⟨rfl, fun e => List.mem_singleton.2 rfl⟩)
      (by simp [blocksOf, lpEvents]) (.seg (List.mem_singleton.2 rfl) (List.mem_singleton.2 rfl) (.lsp _) ?_) ⟨[], rfl⟩
      (fits_apart (by decide)) (.inl ⟨rfl, List.mem_singleton.2 rfl, 0, eight.2 (by decide), ?_⟩))
    · refine .inr ⟨by simp [lpB1, Deferred.stmt, nbaWrites], _, .assign .., ?_⟩
      exact ⟨[], ⟨30, ⟨0, 7⟩, ln 1, true⟩, [], rfl, ⟨rfl, rfl, .inl ⟨by decide, by decide⟩⟩, rfl, by simp⟩
    · intro p _ w hw hh
      have : w = ⟨1, ⟨0, 7⟩, ln 2, true⟩ := by simpa [asgWrites, dsRef] using hw
      subst this; exact absurd hh.2.1 (by decide)
    · rintro tr rfl w hw; cases hw
  · refine .across (b1 := ipB2) (b2 := lpB1) (x := 1) (j := 0) (y := 1) (q := 0) (z := 1) (i := 0) (r := dsRef 1)
      (Q := Start) (by simp [blocksOf, lpEvents]) (lp_clocked (by simp)) ?_ (.inl ⟨lp_clocked (by simp), rfl, rfl⟩)
      (.refl _ _) (by simp [blocksOf, lpEvents])
      (.seg (List.mem_singleton.2 rfl) (List.mem_singleton.2 rfl) (.lsp _) ?_) ⟨[], rfl⟩ (fits_apart (by decide)) rfl
      (eight.2 (by decide)) ?_ (by decide) ⟨?_, fun b hb hc => absurd hc (lp_clocked hb)⟩
    · refine .inr ⟨by simp [ipB2, Deferred.stmt, nbaWrites], _, .assign .., ?_⟩
      exact ⟨[], ⟨1, ⟨0, 7⟩, ln 2, true⟩, [], rfl, ⟨rfl, rfl, .inl ⟨by decide, by decide⟩⟩, rfl, by simp⟩
    · intro p _ w hw hh
      have : w = ⟨30, ⟨0, 7⟩, ln 1, true⟩ := by simpa [asgWrites, dsRef] using hw
      subst this; exact absurd hh.2.1 (by decide)
    · rintro tr rfl w hw; cases hw
    · intro ev hev hy
      simp [lpEvents] at hev
      rcases hev with rfl | rfl | rfl <;> simp [declares] at hy

/-- C69: the loop is reported. -/
example : ∃ n ∈ lpNet.g.nodes, lpNet.data n = .assignment (ln 1) ∧ ∃ l ∈ combLoops lpNet, n ∈ l :=
  cycle_reported_partial (d := .assignment (ln 1)) lp_build lp_phase1 lp_net lp_marked (by rw [lp_events]; exact lp_cycle _)

end Verif.Props

import Verif.Proofs.Netlist
import Verif.Proofs.Split

/-! C63: the traversal of the design (Phase 1). C64: paths through the ports of a hierarchy. -/
namespace Verif.Props
open Verif.Model Verif.Spec Verif.Proofs

/-! ### C63 -/

/-- C63. Phase 1 of every elaborated design ends without a fault, in consistent tables, with the
blocks and black-box paths met, in order. Every node was made for something met, and every driven bit
of every port met has a port node. -/
theorem phase1_total_partial {E : TravEnv} {boxed : Str → Str → Bool} {top : List Member}
    (h : Elaborated E boxed top) : ∃ c, phase1 E top = .ok c ∧ BldOk c.b ∧
      c.blocks = blocksOf (eventsAll boxed E.opts.propCuts top) ∧
      c.boxes = boxesOf (eventsAll boxed E.opts.propCuts top) ∧
      (∀ n ∈ c.b.net.g.nodes, ∃ ev ∈ eventsAll boxed E.opts.propCuts top, Makes E.D ev (c.b.net.data n)) ∧
      ∀ p, .port p ∈ eventsAll boxed E.opts.propCuts top → ∀ x j, HasBit p x j →
        ∃ n, PortNode E.D c.b.net p j n := by
  obtain ⟨c, h1, h2, h3⟩ := walked h
  refine ⟨c, h1, h3.fine.ok, h3.blocks, h3.boxes, ?_, ?_⟩
  · intro n hn
    rcases h3.grew.made n hn with hn | hn
    · cases hn
    · exact hn
  · intro p hp x j hj
    obtain ⟨g1, g2, _⟩ := port_at h2 hp
    obtain ⟨e, he, l1, l2⟩ := g1 x j hj
    have hr := h3.fine.rng _ e he
    refine ⟨e.val, (h3.fine.ok.vars _ e he).1, x, ⟨e.lo, e.hi⟩, hj.1, ?_, g2 x hj.1 e he⟩
    rw [inRng_iff, (bounds_lower (b := ⟨e.lo, e.hi⟩) hr.2.1).1, (bounds_lower (b := ⟨e.lo, e.hi⟩) hr.2.1).2]
    exact ⟨l1, l2⟩

/-- C63, cut points. With the propagation of cuts, no node of a port straddles a boundary that a
connection met earlier puts in the port's internal symbol: of the instance's own connection, or of a
connection further up through a selected signal. -/
theorem ports_split_at_cuts_partial {E : TravEnv} {boxed : Str → Str → Bool} {top : List Member}
    (h : Elaborated E boxed top) (hpc : E.opts.propCuts = true) : ∃ c, phase1 E top = .ok c ∧
      ∀ pre p post, eventsAll boxed E.opts.propCuts top = pre ++ .port p :: post →
        ∀ x b, p.inner = some x → CutIn E.D pre.reverse x b →
          ∀ e ∈ c.b.vars p.sym, ¬ (e.lo < (b : Int) ∧ (b : Int) ≤ e.hi) := by
  obtain ⟨c, h1, h2, _⟩ := walked h
  refine ⟨c, h1, fun pre p post he x b hx hb e hm => ?_⟩
  rw [he] at h2
  exact port_split h2 hpc hx hb hm

/-- C63, black boxes. The build depends only on the events: the members of a black-boxed instance
other than its ports, and of an uninstantiated scope, do not matter. -/
theorem build_by_events {E : TravEnv} {boxed : Str → Str → Bool} (hb : DecidesBoxes E.opts.boxes boxed)
    {top top' : List Member} (h : eventsAll boxed E.opts.propCuts top = eventsAll boxed E.opts.propCuts top')
    (ord : Tracker → List (Nat × Nat)) : phase1 E top = phase1 E top' ∧ netlist E ord top = netlist E ord top' := by
  have : phase1 E top = phase1 E top' := by
    simp only [phase1, visitAll_steps hb, h]
  exact ⟨this, by simp only [netlist, this]⟩

/-- C63: replacing the body of a black-boxed instance by one with the same ports changes nothing in
the state, whatever it was. -/
theorem blackbox_opaque {E : TravEnv} (c : Col) {d path : Str} (hb : Boxed E.opts.boxes d path) {ms ms' : List Member}
    (hp : portsOf ms = portsOf ms') (u : Bool) (ks : List Conn) :
    c.visit E (.inst u d path ms ks) = c.visit E (.inst u d path ms' ks) := by
  classical
  have hd : DecidesBoxes E.opts.boxes (fun d p => decide (Boxed E.opts.boxes d p)) := fun d p => by simp
  rw [visit_steps hd, visit_steps hd]
  simp only [events, hb, hp, decide_true, if_true]

/-- C63: uninstantiated scopes and instances are passed over. -/
theorem uninstantiated_skipped (E : TravEnv) (c : Col) (d path : Str) (ms : List Member) (ks : List Conn) :
    c.visit E (.inst true d path ms ks) = .ok c ∧ c.visit E (.group true ms) = .ok c := by
  simp [Col.visit]

/-- C63: the ports of an instance are met before its connections. -/
theorem instance_ports_first {boxed : Str → Str → Bool} {pc : Bool} {top : List Member} {d path : Str}
    {ms : List Member} {ks : List Conn} (h : Met boxed top (.inst false d path ms ks)) {p : PortDecl}
    (hp : p ∈ portsOf ms) {k : Conn} (hk : k ∈ ks) : Before (eventsAll boxed pc top) p k := by
  obtain ⟨pre, post, h1⟩ := met_events (pc := pc) h
  obtain ⟨l, r, pre', h2, h3, h4⟩ := inst_events (boxed := boxed) (pc := pc) (d := d) (path := path) hk hp
  exact before_of (pre := pre ++ pre') (l := l) (r := r) (post := post) (by rw [h1, h2]; simp) h3 h4

/-- C63: the ports of a body are met before the connections of an instance further down that follows
them. -/
theorem outer_ports_first {boxed : Str → Str → Bool} {pc : Bool} {top : List Member} {d path d' path' : Str}
    {l r ms : List Member} {ks ks' : List Conn} (h : Met boxed top (.inst false d path (l ++ r) ks))
    (hb : boxed d path = false) {p : PortDecl} (hp : .port p ∈ l) (hr : Met boxed r (.inst false d' path' ms ks'))
    {k : Conn} (hk : k ∈ ks') : Before (eventsAll boxed pc top) p k := by
  obtain ⟨pre, post, h1⟩ := met_events (pc := pc) h
  obtain ⟨p1, q1, h2⟩ := met_events (pc := pc) hr
  obtain ⟨p2, q2, h3⟩ := mem_events (boxed := boxed) (pc := pc) hp
  refine before_of (pre := pre ++ (if pc then ks.map .cuts else [])) (l := eventsAll boxed pc l) (r := eventsAll boxed pc r)
    (post := ks.map .connect ++ post) ?_ (by rw [h3]; simp [events]) (by rw [h2]; simp [events, hk])
  rw [h1, events, if_neg (by decide), eventsAll_append]
  simp [hb]

/-! ### C64 -/

/-- C64, the build. Under `Buildable`, the whole build succeeds: the traversal, the blocks in order,
and the resolution; the graph keeps all nodes and edges of the traversal. -/
theorem netlist_total_partial {E : TravEnv} {boxed : Str → Str → Bool} {ord : Tracker → List (Nat × Nat)}
    {top : List Member} (h : Buildable E boxed ord top) : ∃ c s net, phase1 E top = .ok c ∧ c.start = .ok s ∧
      Prepared s c.hist c.blocks ord ∧ s.build E.D ord c.blocks = .ok net ∧ netlist E ord top = .ok net ∧
      (∀ n ∈ c.b.net.g.nodes, n ∈ net.g.nodes ∧ net.data n = c.b.net.data n) ∧
      ∀ a b, Joined c.b.net a b → Joined net a b := by
  obtain ⟨c, s, s', net, h1, h2, _, h4, _, h6, h7, h8⟩ := built h
  exact ⟨c, s, net, h1, h2, h4, h6, h7, fun n hn => ⟨h8.early.nodes n hn, h8.early.data n hn⟩, h8.early.join⟩

theorem built_of {E : TravEnv} {boxed : Str → Str → Bool} {ord : Tracker → List (Nat × Nat)}
    {top : List Member} (h : Buildable E boxed ord top) {c : Col} {net : NetGraph} (hc : phase1 E top = .ok c)
    (hn : netlist E ord top = .ok net) : ∃ s', Whole E (eventsAll boxed E.opts.propCuts top) c s' net := by
  obtain ⟨c', s, s', net', h1, h2, _, h4, _, h6, h7, h8⟩ := built h
  rw [hc] at h1; cases h1
  rw [hn] at h7; cases h7
  exact ⟨s', h8⟩

/-- C64, input ports. If a connection ties bit `j` of an input port to bit `q` of a signal without
nodes of its own, every port node with bit `j` is entered from each assignment of the enclosing scope
(or any other block) that can leave bit `q` its value, and from the port node that last supplies bit
`q` if the signal is itself the inside of an input port. -/
theorem input_port_partial {E : TravEnv} {boxed : Str → Str → Bool} {ord : Tracker → List (Nat × Nat)}
    {top : List Member} (h : Buildable E boxed ord top) {c : Col} {net : NetGraph} (hc : phase1 E top = .ok c)
    (hn : netlist E ord top = .ok net) {p : PortDecl} {k : Conn} {j y q : Nat}
    (ht : Tied E (eventsAll boxed E.opts.propCuts top) p k j y q) (ho : k.output = false)
    (hk : E.D.kind y ≠ .modportPort) (hy : Bare (eventsAll boxed E.opts.propCuts top) y) :
    ∀ e ∈ c.b.vars p.sym, e.lo ≤ j → (j : Int) ≤ e.hi →
      (∀ b ∈ blocksOf (eventsAll boxed E.opts.propCuts top), ¬ Clocked b → ∀ loc, Leaves b.stmt y q loc →
        FedBy net loc e.val) ∧
      ∀ p', LastSupply (eventsAll boxed E.opts.propCuts top) y q p' →
        ∃ e' ∈ c.b.vars p'.sym, e'.lo ≤ q ∧ (q : Int) ≤ e'.hi ∧ Joined net e'.val e.val := by
  obtain ⟨s', hb⟩ := built_of h hc hn
  intro e he l1 l2
  refine ⟨fun b hbm hcl loc hl => ?_, fun p' hl => ?_⟩
  · obtain ⟨s, W, hv, hd⟩ := hb.done
    obtain ⟨d, h1, m, hm, rfl, hdat⟩ := (hd.defs y q loc).2 (.inr ⟨b, hbm, hcl, hl⟩)
    exact ⟨m, hb.late.nodes m hm, by rw [hb.late.data m hm, hdat], enter_port hb ht ho hk hy he l1 l2 h1⟩
  · obtain ⟨e', g1, g2, g3, g4⟩ := (port_at hb.walk (last_mem hl)).2.2.2 y q hl
    exact ⟨e', g1, g2, g3, enter_port hb ht ho hk hy he l1 l2 (hb.keep _ _ _ g4)⟩

/-- C64, output ports. What a block leaves in a bit of the inside of a port whose nodes hold the
written range enters a port node with that bit: from the assignment, or in an edge-triggered block
from the register it feeds. -/
theorem output_port_partial {E : TravEnv} {boxed : Str → Str → Bool} {ord : Tracker → List (Nat × Nat)}
    {top : List Member} (h : Buildable E boxed ord top) {c : Col} {net : NetGraph} (hc : phase1 E top = .ok c)
    (hn : netlist E ord top = .ok net) {p : PortDecl} (hp : .port p ∈ eventsAll boxed E.opts.propCuts top) {x : Nat}
    (hx : E.D.port x = some p.sym) {lo hi : Int} (hh : Spans E c.cuts p x lo hi) {b : Deferred}
    (hb : b ∈ blocksOf (eventsAll boxed E.opts.propCuts top)) {j : Nat}
    (hw : ∀ w ∈ allWrites b.stmt, w.sym = x → InRng w.bounds j → lo ≤ w.bounds.lower ∧ w.bounds.upper ≤ hi)
    {loc : TextLoc} (hl : Leaves b.stmt x j loc) :
    ∃ e ∈ c.b.vars p.sym, e.lo ≤ j ∧ (j : Int) ≤ e.hi ∧ ∃ k ∈ net.g.nodes, Joined net k e.val ∧
      (¬ Clocked b → net.data k = .assignment loc) ∧
      (Clocked b → (∃ bd, InRng bd j ∧ net.data k = .state (E.D.ref x).name (E.D.ref x).path (E.D.ref x).loc bd) ∧
        FedBy net loc k) := by
  obtain ⟨s', hb'⟩ := built_of h hc hn
  obtain ⟨e, e1, e2, e3, k, k1, k2, k3, k4⟩ := leave_port hb' hb hl hw hp hx hh
  refine ⟨e, e1, e2, e3, k, k1, k2, k3, fun hc => ?_⟩
  obtain ⟨⟨bd, f1, f2, _⟩, f3⟩ := k4 hc
  exact ⟨⟨bd, f1, f2⟩, f3⟩

/-- C64, reads of what comes out of an instance. If a connection ties bit `j` of an output port to bit
`q` of a signal without nodes of its own that no input port supplies, every read of that bit in a
block, not preceded by a write of the block, is entered from every port node with bit `j`. -/
theorem output_read_partial {E : TravEnv} {boxed : Str → Str → Bool} {ord : Tracker → List (Nat × Nat)}
    {top : List Member} (h : Buildable E boxed ord top) {c : Col} {net : NetGraph} (hc : phase1 E top = .ok c)
    (hn : netlist E ord top = .ok net) {p : PortDecl} {k : Conn} {j y q : Nat}
    (ht : Tied E (eventsAll boxed E.opts.propCuts top) p k j y q) (ho : k.output = true)
    (hu : Unsupplied (eventsAll boxed E.opts.propCuts top) y q) (hk : E.D.kind y ≠ .modportPort)
    (hy : Bare (eventsAll boxed E.opts.propCuts top) y) {b : Deferred}
    (hb : b ∈ blocksOf (eventsAll boxed E.opts.propCuts top)) {who : NodeData} {r : Ref} {Q : List Wr → Prop}
    (huse : Use Start b.stmt who r Q) (hq : ∃ tr, Q tr) (hf : ReadFits (allWrites b.stmt) r.sym r.bounds)
    (hr : r.sym = y) (hin : InRng r.bounds q) (hno : ∀ tr, Q tr → ∀ w ∈ tr, ¬ Hits true y q w) :
    ∃ n ∈ net.g.nodes, net.data n = who ∧
      ∀ e ∈ c.b.vars p.sym, e.lo ≤ j → (j : Int) ≤ e.hi → Joined net e.val n := by
  obtain ⟨s', hb'⟩ := built_of h hc hn
  subst hr
  obtain ⟨s, W, hv, hd⟩ := hb'.done
  obtain ⟨n, g1, _, g3, g4⟩ := hd.uses b hb who r Q huse hq hf
  refine ⟨n, hb'.late.nodes n g1, by rw [hb'.late.data n g1, g3], fun e he l1 l2 => ?_⟩
  obtain ⟨x, hx, e1, e2, _, e4⟩ := g4.queued hk q hin hno
  obtain ⟨hbf, hs, htie⟩ := ht
  obtain ⟨i, hi⟩ := htie.1
  obtain ⟨bd, _, _, _, _, hun, _⟩ := (connect_at hb'.walk hbf hi hs htie he l1 l2).2 ho
  obtain ⟨xs, xb, xn, xg⟩ := x
  simp only at e1 e2 e4
  subst e1 e2
  exact hb'.read _ hy xb n xg q hx e4 _ (hb'.keep _ _ _ (hun hu))

/-- C64. What a block leaves in a bit reaches every read of the bit in any block of the design that no
write of that block precedes, up through the output ports of any number of instances and down through
the input ports of any number of instances. -/
theorem hierarchy_path_partial {E : TravEnv} {boxed : Str → Str → Bool} {ord : Tracker → List (Nat × Nat)}
    {top : List Member} (h : Buildable E boxed ord top) {c : Col} {net : NetGraph} (hc : phase1 E top = .ok c)
    (hn : netlist E ord top = .ok net) {b1 b2 : Deferred}
    (hb1 : b1 ∈ blocksOf (eventsAll boxed E.opts.propCuts top))
    (hb2 : b2 ∈ blocksOf (eventsAll boxed E.opts.propCuts top)) {x j : Nat} {loc : TextLoc}
    (hl : Leaves b1.stmt x j loc) {y q : Nat}
    (hup : Arrives E (eventsAll boxed E.opts.propCuts top) c.cuts b1 x j y q) {z i : Nat}
    (hdown : Down E (eventsAll boxed E.opts.propCuts top) y q z i) {who : NodeData} {r : Ref} {Q : List Wr → Prop}
    (huse : Use Start b2.stmt who r Q) (hq : ∃ tr, Q tr) (hf : ReadFits (allWrites b2.stmt) r.sym r.bounds)
    (hr : r.sym = z) (hin : InRng r.bounds i) (hno : ∀ tr, Q tr → ∀ w ∈ tr, ¬ Hits true z i w)
    (hk : E.D.kind z ≠ .modportPort) (hz : Bare (eventsAll boxed E.opts.propCuts top) z) :
    ∃ a ∈ net.g.nodes, ∃ m ∈ net.g.nodes, net.data a = .assignment loc ∧ net.data m = who ∧
      Reach (Joined net) a m := by
  obtain ⟨s', hb⟩ := built_of h hc hn
  subst hr
  obtain ⟨a, a1, a2, a', a3, a4⟩ := carried hb hb1 hl hup
  obtain ⟨a'', d1, d2⟩ := down hb hdown a3
  obtain ⟨s, W, hv, hd⟩ := hb.done
  obtain ⟨n, g1, _, g3, g4⟩ := hd.uses b2 hb2 who r Q huse hq hf
  obtain ⟨p, hp, e1, e2, _, e4⟩ := g4.queued hk i hin hno
  obtain ⟨ps, pb, pn, pg⟩ := p
  simp only at e1 e2 e4
  subst e1 e2
  exact ⟨a, a1, n, hb.late.nodes n g1, a2, by rw [hb.late.data n g1, g3],
    (reach_trans a4 (hops_joined d2)).tail (hb.read _ hz pb n pg i hp e4 _ d1)⟩

/-! ### A concrete design

```
module leaf(input [7:0] i, output [7:0] o); assign o = i; endmodule          // line 2
module mid(input [7:0] mi, output [7:0] mo); leaf l(.i(mi), .o(mo)); endmodule
module top(input [7:0] a, output [7:0] z);
  wire [7:0] w; wire [3:0] v1, v0;
  assign z = w;                                                               // line 1
  assign v0 = a[3:0];                                                         // line 3
  mid m(.mi({v1, v0}), .mo(w));
endmodule
```
The ports are 20 to 25, the signals `a`, `z`, `w`, `mi`, `mo`, `i`, `o`, `v1`, `v0` are 0 to 8. -/

def hdD : Design := ⟨fun n => ⟨[Char.ofNat (97 + n)], [Char.ofNat (97 + n)], {}⟩, fun _ => .other,
  fun n => if n = 7 ∨ n = 8 then 4 else 8,
  fun n => match n with | 0 => some 20 | 1 => some 21 | 3 => some 22 | 4 => some 23 | 5 => some 24 | 6 => some 25 | _ => none,
  fun _ _ => []⟩

def hdE : TravEnv := ⟨hdD, {}, fun _ => 0, fun _ => []⟩

/-- An input and an output port of eight bits. -/
def hdIn (sym x : Nat) : PortDecl := ⟨sym, some x, .input, [⟨0, 7, true⟩]⟩
def hdOut (sym x : Nat) : PortDecl := ⟨sym, some x, .output, [⟨0, 7, false⟩]⟩

/-- All bits of a signal. -/
def hdWhole (y : Nat) : SExpr := .lsp 8 ⟨some y, 0, 7⟩ []

def hdNib : SExpr := .concat 8 [.lsp 4 ⟨some 7, 0, 3⟩ [], .lsp 4 ⟨some 8, 0, 3⟩ []]

def hdZ : Deferred := .continuous (ln 1) (.aligned [⟨[dsRef 1], [.lsp (dsRef 2)], ln 1⟩])
def hdO : Deferred := .continuous (ln 2) (.aligned [⟨[dsRef 6], [.lsp (dsRef 5)], ln 2⟩])
def hdV : Deferred := .continuous (ln 3) (.aligned [⟨[⟨8, ⟨0, 3⟩, 0, false⟩], [.lsp ⟨0, ⟨0, 3⟩, 0, false⟩], ln 3⟩])

def hdKi : Conn := ⟨.port 24 (some 5), some (hdWhole 3), false, true⟩
def hdKo : Conn := ⟨.port 25 (some 6), some (hdWhole 4), true, true⟩
def hdMi : Conn := ⟨.port 22 (some 3), some hdNib, false, true⟩
def hdMo : Conn := ⟨.port 23 (some 4), some (hdWhole 2), true, true⟩

def hdLeaf : Member := .inst false ['l'] ['t', '.', 'm', '.', 'l'] [.port (hdIn 24 5), .port (hdOut 25 6), .block hdO] [hdKi, hdKo]
def hdMid : Member := .inst false ['m'] ['t', '.', 'm'] [.port (hdIn 22 3), .port (hdOut 23 4), hdLeaf] [hdMi, hdMo]
def hdTop : List Member :=
  [.inst false ['t'] ['t'] [.port (hdIn 20 0), .port (hdOut 21 1), .block hdZ, .block hdV, hdMid] []]

def hdBoxed (_ _ : Str) : Bool := false

def hdEvents : List Event := [.port (hdIn 20 0), .port (hdOut 21 1), .block hdZ, .block hdV, .cuts hdMi, .cuts hdMo,
  .port (hdIn 22 3), .port (hdOut 23 4), .cuts hdKi, .cuts hdKo, .port (hdIn 24 5), .port (hdOut 25 6), .block hdO,
  .connect hdKi, .connect hdKo, .connect hdMi, .connect hdMo]

theorem hd_events : eventsAll hdBoxed true hdTop = hdEvents := by
  simp [hdTop, hdMid, hdLeaf, eventsAll, events, hdBoxed, hdEvents]

def hdCol : Col := (phase1 hdE hdTop).toOption.getD {}
def hdNet : NetGraph := (netlist hdE Tracker.slots hdTop).toOption.getD {}


theorem hd_elab : Elaborated hdE hdBoxed hdTop where
  boxes := by simp [DecidesBoxes, Boxed, hdBoxed, hdE]
  ok := by
    show ∀ ev ∈ eventsAll hdBoxed true hdTop, _
    rw [hd_events]
    simp [hdEvents, EventOk, hdIn, hdOut, PortDriver.hi, hdE, hdD, hdKi, hdKo, hdMi, hdMo, hdWhole, hdNib, WT, WTs,
      SExpr.width]
  once := by
    show ((eventsAll hdBoxed true hdTop).flatMap declares).Nodup
    rw [hd_events]
    decide

theorem hd_phase1 : phase1 hdE hdTop = .ok hdCol := by
  obtain ⟨c, h, _⟩ := phase1_total_partial hd_elab
  rw [hdCol, h]; rfl

/-- The recordings: the last three ports and connections split `mi` and `i` at bit 4. -/
theorem hd_hist : hdCol.hist.map (fun x => (x.1, x.2.bounds, x.2.merge)) = [(0, ⟨0, 7⟩, false), (3, ⟨0, 3⟩, false),
    (3, ⟨4, 7⟩, false), (5, ⟨0, 3⟩, false), (5, ⟨4, 7⟩, false), (4, ⟨0, 7⟩, true), (2, ⟨0, 7⟩, true)] := by
  decide +kernel

theorem hd_blocks : blocksOf hdEvents = [hdZ, hdV, hdO] := rfl

theorem hd_plain : Plain (designWrites hdCol.hist hdCol.blocks) :=
  plain_of_two (lo := 0) (mid := 3) (hi := 7) (by decide) (by decide) (by decide +kernel) (by decide) (by decide)

theorem hd_build : Buildable hdE hdBoxed Tracker.slots hdTop where
  design := hd_elab
  plain := by
    intro c hc
    rw [hd_phase1] at hc
    exact Except.ok.inj hc ▸ hd_plain
  live := by
    show ∀ b ∈ blocksOf (eventsAll hdBoxed true hdTop), _
    rw [hd_events, hd_blocks]
    intro b hb; simp at hb; rcases hb with rfl | rfl | rfl <;> decide
  events := by
    show ∀ b ∈ blocksOf (eventsAll hdBoxed true hdTop), _
    rw [hd_events, hd_blocks]
    intro b hb; simp at hb; rcases hb with rfl | rfl | rfl <;> trivial
  visits := fun _ => List.Perm.refl _
  ports := by
    show ∀ p, .port p ∈ eventsAll hdBoxed true hdTop → ∀ b ∈ blocksOf (eventsAll hdBoxed true hdTop), _
    rw [hd_events, hd_blocks]
    have : ∀ b ∈ [hdZ, hdV, hdO], ∀ w ∈ allWrites b.stmt, w.sym < 20 := by
      intro b hb; simp at hb; rcases hb with rfl | rfl | rfl <;> decide
    intro p hp b hb w hw
    have := this b hb w hw
    simp [hdEvents, hdIn, hdOut] at hp
    rcases hp with rfl | rfl | rfl | rfl | rfl | rfl <;> simp only <;> omega

theorem hd_net : netlist hdE Tracker.slots hdTop = .ok hdNet := by
  obtain ⟨_, _, net, _, _, _, _, h, _⟩ := netlist_total_partial hd_build
  rw [hdNet, h]; rfl

theorem hd_bare {y : Nat} (h : y < 20) : Bare hdEvents y := by
  refine ⟨fun ev hev => ?_, fun b hb hc => ?_⟩
  · have : ∀ ev ∈ hdEvents, ∀ z ∈ declares ev, 20 ≤ z := by
      intro ev hev; simp [hdEvents] at hev
      rcases hev with rfl | rfl | rfl | rfl | rfl | rfl | rfl | rfl | rfl | rfl | rfl | rfl | rfl | rfl | rfl | rfl | rfl <;>
        simp [declares, hdIn, hdOut]
    intro hy
    have := this ev hev y hy
    omega
  · rw [hd_blocks] at hb
    simp at hb
    obtain ⟨⟨v, hv, _⟩, _⟩ := hc
    rcases hb with rfl | rfl | rfl <;> cases hv

theorem hd_supply {p : PortDecl} (h : .port p ∈ hdEvents) {x j : Nat} (hs : Supplies p x j) :
    p = hdIn 20 0 ∧ x = 0 ∨ p = hdIn 22 3 ∧ x = 3 ∨ p = hdIn 24 5 ∧ x = 5 := by
  obtain ⟨h1, d, h2, h3, _⟩ := hs
  simp [hdEvents] at h
  rcases h with rfl | rfl | rfl | rfl | rfl | rfl <;> simp [hdIn, hdOut] at h1 h2 <;> subst h2 <;>
    simp_all [hdIn]

theorem hd_tied {k : Conn} {p : PortDecl} {sym x j y : Nat} {o : Bool}
    (hk : k = ⟨.port sym (some x), some (hdWhole y), o, true⟩) (hp : p.sym = sym) (hb : Before hdEvents p k)
    (hw : hdD.width sym = 8) : Tied hdE hdEvents p k j y j ∧ Direct hdE.opts hdD k ∧
      ∀ j' q', j' < 8 → Ties hdE.opts hdD k sym j' y q' → q' < 8 := by
  subst hp
  have hbw : BitWise hdE.opts hdD k p.sym (hdWhole y) := ⟨rfl, by rw [hk], by rw [hw]; rfl⟩
  refine ⟨⟨hb, ?_, ⟨_, by rw [hk]⟩, hdWhole y, by rw [hk], .inl ⟨hbw, .inl ⟨rfl, rfl, by simp⟩⟩⟩, ?_, ?_⟩
  · intro sym i e _ he _
    rw [hk] at he
    cases he
    exact ⟨⟨rfl, rfl⟩, fun _ => by simp [hdWhole, Lvalue]⟩
  · intro sym i e _ he _
    rw [hk] at he
    cases he
    trivial
  · rintro j' q' hj ⟨_, e, he, h⟩
    rw [hk] at he
    cases he
    rcases h with ⟨_, h⟩ | ⟨h, _⟩
    · rcases h with ⟨_, _, h⟩ | ⟨h, _⟩ | ⟨p', hp', _⟩
      · simpa [h] using hj
      · exact absurd rfl h
      · cases hp'
    · exact absurd hbw h

/-- Output ports hold all eight bits: nothing is cut there. -/
theorem hd_holds {sym x : Nat} (h : hdCol.cuts x = none) : Spans hdE hdCol.cuts (hdOut sym x) x 0 7 :=
  ⟨rfl, by omega, ⟨_, List.mem_singleton.2 rfl, by simp [PortDriver.hi]⟩, fun _ l hl => by rw [h] at hl; cases hl⟩

theorem hd_uncut : hdCol.cuts 6 = none ∧ hdCol.cuts 4 = none := by decide +kernel

/-- Out of `l`, and out of `m`. -/
theorem hd_exit_l : Exits hdE hdEvents hdCol.cuts none hdKo 6 0 7 2 4 0 7 2 := by
  obtain ⟨h1, h2, h3⟩ := hd_tied (k := hdKo) (p := hdOut 25 6) (j := 2) rfl rfl
    ⟨hdEvents.take 11, (hdEvents.take 14).drop 12, hdEvents.drop 15, rfl⟩ rfl
  refine ⟨hdOut 25 6, rfl, h1, h2, ?_, rfl, hd_holds hd_uncut.1, by omega, by omega, ?_, by simp⟩
  · intro p hp hs
    rcases hd_supply hp hs with ⟨_, h⟩ | ⟨_, h⟩ | ⟨_, h⟩ <;> cases h
  · intro j' q' hj ht
    have := h3 j' q' hj ht
    omega

theorem hd_exit_m : Exits hdE hdEvents hdCol.cuts (some hdKo) hdMo 4 0 7 2 2 0 7 2 := by
  obtain ⟨h1, h2, h3⟩ := hd_tied (k := hdMo) (p := hdOut 23 4) (j := 2) rfl rfl
    ⟨hdEvents.take 7, (hdEvents.take 16).drop 8, hdEvents.drop 17, rfl⟩ rfl
  refine ⟨hdOut 23 4, rfl, h1, h2, ?_, rfl, hd_holds hd_uncut.2, by omega, by omega, ?_, ?_⟩
  · intro p hp hs
    rcases hd_supply hp hs with ⟨_, h⟩ | ⟨_, h⟩ | ⟨_, h⟩ <;> cases h
  · intro j' q' hj ht
    have := h3 j' q' hj ht
    omega
  · rintro k0 hk
    cases hk
    exact ⟨hdEvents.take 7, (hdEvents.take 14).drop 8, hdEvents.drop 15, rfl⟩

/-- Bit 2 of `v0` into `m`, and of `mi` into `l`. -/
theorem hd_enter_m : Enters hdE hdEvents 8 2 3 2 := by
  refine ⟨hdIn 22 3, hdMi, rfl, ⟨⟨hdEvents.take 6, (hdEvents.take 15).drop 7, hdEvents.drop 16, rfl⟩, ?_, ⟨_, rfl⟩, hdNib, rfl,
    .inl ⟨⟨rfl, rfl, rfl⟩, ?_⟩⟩, ⟨hdEvents.take 6, hdEvents.drop 7, rfl, ⟨rfl, _, List.mem_singleton.2 rfl, rfl, by simp [PortDriver.hi]⟩, ?_⟩,
    by simp [hdE, hdD], hd_bare (by omega)⟩
  · intro sym i e _ he _
    cases he
    exact ⟨⟨⟨rfl, rfl⟩, ⟨rfl, rfl⟩, trivial⟩, by simp [hdMi]⟩
  · exact .inl ⟨by decide, .inr ⟨by decide, .inl ⟨rfl, rfl, rfl⟩⟩⟩
  · intro p hp hs
    rcases hd_supply (List.mem_of_mem_drop hp) hs with ⟨_, h⟩ | ⟨h, _⟩ | ⟨_, h⟩
    · cases h
    · subst h; simp [hdEvents, hdIn, hdOut] at hp
    · cases h

theorem hd_enter_l : Enters hdE hdEvents 3 2 5 2 := by
  obtain ⟨h1, _, _⟩ := hd_tied (k := hdKi) (p := hdIn 24 5) (j := 2) rfl rfl
    ⟨hdEvents.take 10, (hdEvents.take 13).drop 11, hdEvents.drop 14, rfl⟩ rfl
  refine ⟨hdIn 24 5, hdKi, rfl, h1, ⟨hdEvents.take 10, hdEvents.drop 11, rfl, ⟨rfl, _, List.mem_singleton.2 rfl, rfl, by simp [PortDriver.hi]⟩, ?_⟩,
    by simp [hdE, hdD], hd_bare (by omega)⟩
  intro p hp hs
  rcases hd_supply (List.mem_of_mem_drop hp) hs with ⟨_, h⟩ | ⟨_, h⟩ | ⟨h, _⟩
  · cases h
  · cases h
  · subst h; simp [hdEvents, hdIn, hdOut] at hp

/-- The hypotheses of `hierarchy_path_partial` (with `output_port_partial` and `output_read_partial`)
are met two levels up: line 2 in `l` reaches line 1 in the top module. -/
example : ∃ a ∈ hdNet.g.nodes, ∃ m ∈ hdNet.g.nodes, hdNet.data a = .assignment (ln 2) ∧
    hdNet.data m = .assignment (ln 1) ∧ Reach (Joined hdNet) a m := by
  have hev : eventsAll hdBoxed hdE.opts.propCuts hdTop = hdEvents := hd_events
  refine hierarchy_path_partial (b1 := hdO) (b2 := hdZ) (x := 6) (j := 2) (y := 2) (q := 2) (z := 2) (i := 2) (r := dsRef 2)
    (Q := Start) hd_build hd_phase1 hd_net (by rw [hev, hd_blocks]; simp) (by rw [hev, hd_blocks]; simp)
    (.inr ⟨by simp [hdO, Deferred.stmt, nbaWrites], _, .assign _ _ _, [], ⟨6, ⟨0, 7⟩, ln 2, true⟩, [],
      rfl, ⟨rfl, rfl, by simp [InRng]⟩, rfl, by simp⟩)
    (.inr ⟨0, 7, ?_, by rw [hev]; exact .more hd_exit_l (.one hd_exit_m)⟩) (.refl _ _)
    (.seg (List.mem_singleton.2 rfl) (List.mem_singleton.2 rfl) (.lsp _) ?_) ⟨[], rfl⟩ (.inr ?_) rfl
    (by simp [InRng, dsRef]) ?_ (by simp [hdE, hdD]) (by rw [hev]; exact hd_bare (by omega))
  · intro w hw _ _
    cases List.mem_singleton.1 hw
    simp only [dsRef, BitRange.lower, BitRange.upper]
    omega
  · intro p _ w hw hh
    cases List.mem_singleton.1 hw
    exact absurd hh.2.1 (by decide)
  · rintro k ⟨w, hw, hs, _⟩
    cases List.mem_singleton.1 hw
    cases hs
  · rintro tr rfl w hw
    cases hw

/-- The same two levels down (with `input_port_partial`): line 3 in the top module reaches line 2 in
`l`. -/
example : ∃ a ∈ hdNet.g.nodes, ∃ m ∈ hdNet.g.nodes, hdNet.data a = .assignment (ln 3) ∧
    hdNet.data m = .assignment (ln 2) ∧ Reach (Joined hdNet) a m := by
  have hev : eventsAll hdBoxed hdE.opts.propCuts hdTop = hdEvents := hd_events
  refine hierarchy_path_partial (b1 := hdV) (b2 := hdO) (x := 8) (j := 2) (y := 8) (q := 2) (z := 5) (i := 2) (r := dsRef 5)
    (Q := Start) hd_build hd_phase1 hd_net (by rw [hev, hd_blocks]; simp) (by rw [hev, hd_blocks]; simp)
    (.inr ⟨by simp [hdV, Deferred.stmt, nbaWrites], _, .assign _ _ _, [], ⟨8, ⟨0, 3⟩, ln 3, true⟩, [],
      rfl, ⟨rfl, rfl, by simp [InRng]⟩, rfl, by simp⟩)
    (.inl ⟨?_, rfl, rfl⟩) (by rw [hev]; exact .step hd_enter_m (.step hd_enter_l (.refl _ _)))
    (.seg (List.mem_singleton.2 rfl) (List.mem_singleton.2 rfl) (.lsp _) ?_) ⟨[], rfl⟩ (.inr ?_) rfl
    (by simp [InRng, dsRef]) ?_ (by simp [hdE, hdD]) (by rw [hev]; exact hd_bare (by omega))
  · rintro ⟨⟨v, hv, _⟩, _⟩
    cases hv
  · intro p _ w hw hh
    cases List.mem_singleton.1 hw
    exact absurd hh.2.1 (by decide)
  · rintro k ⟨w, hw, hs, _⟩
    cases List.mem_singleton.1 hw
    cases hs
  · rintro tr rfl w hw
    cases hw

/-- The hypotheses of `ports_split_at_cuts_partial` are met one and two levels down: the boundary at bit
4 of `{v1, v0}` cuts `mi`, and through it `i`; both have a node for each half. -/
example : hdE.opts.propCuts = true ∧ CutIn hdD (hdEvents.take 6).reverse 3 4 ∧ CutIn hdD (hdEvents.take 10).reverse 5 4 ∧
    (hdCol.b.vars 22).map (fun e => (e.lo, e.hi)) = [(0, 3), (4, 7)] ∧
    (hdCol.b.vars 24).map (fun e => (e.lo, e.hi)) = [(0, 3), (4, 7)] := by
  have h3 : ∀ es, CutIn hdD (.cuts hdMi :: es) 3 4 := fun es => .inr ⟨22, hdNib, rfl, rfl, rfl, rfl, by omega, by decide, rfl,
    .inl ⟨by simp, by decide, rfl⟩⟩
  refine ⟨rfl, ?_, ?_, by decide +kernel, by decide +kernel⟩
  · exact .inl (h3 _)
  · exact .inl (.inr ⟨24, hdWhole 3, rfl, rfl, rfl, rfl, by omega, by decide, 3, 4, rfl, .inl (h3 _), by decide, by decide, rfl⟩)

/-- The order lemmas: the ports of `l` come before its connections, and those of `m` too. -/
example : Met hdBoxed hdTop hdLeaf ∧ hdOut 25 6 ∈ portsOf [.port (hdIn 24 5), .port (hdOut 25 6), .block hdO] ∧
    Before hdEvents (hdOut 25 6) hdKo ∧ Before hdEvents (hdOut 23 4) hdKo := by
  refine ⟨.inst (List.mem_singleton.2 rfl) rfl (.inst (l := [.port (hdIn 22 3), .port (hdOut 23 4), hdLeaf]) (d := ['m']) (p := ['t', '.', 'm'])
    (ks := [hdMi, hdMo]) (by simp [hdMid]) rfl (.here (by simp))), by simp [portsOf], ?_, ?_⟩
  · exact ⟨hdEvents.take 11, (hdEvents.take 14).drop 12, hdEvents.drop 15, rfl⟩
  · exact ⟨hdEvents.take 7, (hdEvents.take 14).drop 8, hdEvents.drop 15, rfl⟩

/-- With `m` as a black box, its inside contributes nothing: the graph has the nodes of its ports (4 of
6 events), the blocks are those of the top module. -/
example : let E : TravEnv := { hdE with opts := { boxes := [['m']] } }
    let c := (phase1 E hdTop).toOption.getD {}
    Boxed E.opts.boxes ['m'] ['t', '.', 'm'] ∧ c.boxes = [['t', '.', 'm']] ∧ c.blocks.length = 2 ∧
      c.b.net.g.nodes = [0, 1, 2, 3, 4] ∧ (c.b.vars 24).length = 0 := by
  refine ⟨⟨['m'], by simp, .inl ?_⟩, by decide +kernel, by decide +kernel, by decide +kernel, by decide +kernel⟩
  exact ⟨['m'], [], rfl, rfl, rfl⟩

/-- Multi-port connections cannot be dropped from the assumptions: they end in `SLANG_UNREACHABLE`
(source/NetlistBuilder.cpp:519). -/
theorem multi_port_faults (E : TravEnv) (hb : E.opts.boxes = []) (d path : Str) (e : Option SExpr) (o i : Bool) :
    phase1 E [.inst false d path [] [⟨.multi, e, o, i⟩]] = .error .unreachable := by
  have hbb : isBlackBox E.opts.boxes d path = .ok false := by simp [isBlackBox, hb]; rfl
  cases hp : E.opts.propCuts <;>
    simp [phase1, Col.visitAll, Col.visit, hp, hbb, Col.recordCuts, Col.recordCut, Col.connects, Col.connect]

/-- Left sides cannot be dropped from the assumptions: an output connected to any other form, such as
`{>>{w}}`, does not drive `w`; the port node is made to depend on `w` instead
(source/PortConnectionHandler.cpp:408-430). -/
theorem opaque_output_reads :
    let c := (phase1 hdE [.inst false ['m'] ['m'] [.port (hdOut 23 4)]
      [⟨.port 23 (some 4), some (.other 8 none [⟨some 2, 0, 7⟩]), true, true⟩]]).toOption.getD {}
    c.hist.length = 0 ∧ c.b.queue = [⟨2, ⟨0, 7⟩, some 0, .none⟩] := by
  decide +kernel

end Verif.Props

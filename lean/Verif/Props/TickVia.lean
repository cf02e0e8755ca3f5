import Verif.Proofs.TickVia
import Verif.Props.Tick
import Verif.Props.IfaceTick

/-! C105: without a path there is no influence over time, on the times at which blocks fire included, through
interfaces either. -/
namespace Verif.Props
open Verif.Model Verif.Spec Verif.Proofs

theorem timedVia_keeping {E : TravEnv} {es : List Event} {cuts : CutReg} {via : Nat → Nat → Nat × Nat}
    (hr : RegularVia E es cuts via) (ht : TimedVia E es cuts via) : Keeping E es cuts where
  sync := ht.sync
  kept := ht.kept
  free := fun _ hb _ _ hk ho _ hb' _ _ _ hu _ hp => keptVia_unwritten hr ht hb hk ho hb' hu hp
  inlets := hr.inlets

/-- A chain of dependences, in registers, clocks and interfaces, is a path of the netlist. -/
theorem movesVia_reach {E : TravEnv} {es : List Event} {c : Col} {s' : Bld} {net : NetGraph}
    (hw : Tabled E es c s' net) (ht : Keeping E es c.cuts) (hg : WholeClocks E.D es) {u v : Point}
    (h : Reach (MovesVia E es c.cuts) u v) : ∀ {m : Nat},
    PtNode es s' net v m → ∃ k, PtNode es s' net u k ∧ Reach (Joined net) k m := by
  induction h with
  | refl => intro m hm; exact ⟨m, hm, .refl⟩
  | @tail w _ _ h2 ih =>
    intro m hm
    have : ∃ k, PtNode es s' net w k ∧ Reach (Joined net) k m := by
      cases h2 with
      | move h2 h3 h4 => exact moves_back hw ht hg h2 h3 h4 hm
      | cross h1 _ h3 h4 =>
        obtain ⟨a, a1, x, k, k1, k2, k3, k4, k5⟩ := crosses_hops hw.whole h1 h3 h4
        obtain rfl := hw.one k k1 m hm.1 (k3.trans hm.2.symm) (by rw [hm.2]; exact crosses_kind h4)
        exact ⟨a, ⟨a1, k2⟩, (hops_joined k4).tail k5.1⟩
    obtain ⟨k, k1, k2⟩ := this
    obtain ⟨k', k3, k4⟩ := ih k1
    exact ⟨k', k3, reach_trans k4 k2⟩

/-- Node `n` of the netlist is the one from which bit `j` of `x` gets its value in block `b`: the node of the
register, or, if the bit is not one of a register or is on an interface, of an assignment that can leave the bit its
value. -/
def GivenVia (E : TravEnv) (es : List Event) (net : NetGraph) (b : Deferred) (x j n : Nat) : Prop :=
  n ∈ net.g.nodes ∧
  (Clocked b → ¬ OnIface E es x →
    ∃ bd, InRng bd j ∧ net.data n = .state (E.D.ref x).name (E.D.ref x).path (E.D.ref x).loc bd) ∧
  (¬ Clocked b ∨ OnIface E es x → ∃ loc, Leaves b.stmt x j loc ∧ net.data n = .assignment loc)

/-- What `influence_through_clocks_via_partial` and `no_path_same_clocked_via_partial` share. -/
theorem influence_clocks_via {V : Type} {M : Meaning V} {E : TravEnv} {boxed : Str → Str → Bool}
    {ord : Tracker → List (Nat × Nat)} {top marked : List Member} {f : TextLoc → TextLoc}
    (h : Buildable E boxed ord top) {c : Col} {net : NetGraph} (hc : phase1 E top = .ok c)
    (hn : netlist E ord top = .ok net) (hm : Marked boxed E.opts.propCuts f marked top) (hl : combLoops net = [])
    {via : Nat → Nat → Nat × Nat} (hr : RegularVia E (eventsAll boxed E.opts.propCuts marked) c.cuts via)
    (ht : TimedVia E (eventsAll boxed E.opts.propCuts marked) c.cuts via)
    (ho : ClocksOff E (eventsAll boxed E.opts.propCuts marked) c.cuts)
    (hg : WholeClocks E.D (eventsAll boxed E.opts.propCuts marked))
    (hf : Faithful M E (eventsAll boxed E.opts.propCuts marked))
    (hf' : ∀ b ∈ blocksOf (eventsAll boxed E.opts.propCuts marked), Clocked b → Reflects M b.stmt)
    {T : (Nat → Vals V) → Nat → Deferred → Bool} (hT : Triggers E.D (eventsAll boxed E.opts.propCuts marked) T)
    {σ σ' : Nat → Vals V} (hs : Unrolls M E (eventsAll boxed E.opts.propCuts marked) (T σ) σ)
    (hs' : Unrolls M E (eventsAll boxed E.opts.propCuts marked) (T σ') σ')
    (hv : ∀ t, Shared E (eventsAll boxed E.opts.propCuts marked) via (σ t))
    (hv' : ∀ t, Shared E (eventsAll boxed E.opts.propCuts marked) via (σ' t))
    (ha : ∀ b ∈ blocksOf (eventsAll boxed E.opts.propCuts marked), ∀ x j, Kept b x j →
      OnIface E (eventsAll boxed E.opts.propCuts marked) x → ∀ t, T σ t b = T σ' t b)
    (hz : ∀ b ∈ blocksOf (eventsAll boxed E.opts.propCuts marked), ∀ x j, Kept b x j → σ 0 x j = σ' 0 x j)
    {b : Deferred} (hb : b ∈ blocksOf (eventsAll boxed E.opts.propCuts marked)) {x j t : Nat} (hx : ValueFrom b x j)
    (hne : σ t x j ≠ σ' t x j) :
    ∃ net' c' s'', netlist E ord marked = .ok net' ∧ net = moveNet f net' ∧ c'.cuts = c.cuts ∧
      Tabled E (eventsAll boxed E.opts.propCuts marked) c' s'' net' ∧
      ∃ t' ≤ t, ∃ s q z i u, OuterSource E (eventsAll boxed E.opts.propCuts marked) c.cuts via s q ∧
      ¬ HeldVia E (eventsAll boxed E.opts.propCuts marked) c.cuts via s q ∧ σ t' s q ≠ σ' t' s q ∧
      Brings E (eventsAll boxed E.opts.propCuts marked) s q z i ∧
      Heeds E.D (eventsAll boxed E.opts.propCuts marked) z i u ∧
      Off E (eventsAll boxed E.opts.propCuts marked) u ∧
      ∃ m n, PtNode (eventsAll boxed E.opts.propCuts marked) s'' net' u m ∧
        GivenVia E (eventsAll boxed E.opts.propCuts marked) net' b x j n ∧
        (Clocked b → ¬ OnIface E (eventsAll boxed E.opts.propCuts marked) x →
          PtNode (eventsAll boxed E.opts.propCuts marked) s'' net' (.reg x) n) ∧
        Reach (Joined net') m n := by
  obtain ⟨c', net', g1, g2, g3, g4, rfl, g6⟩ := marked_built h hc hn hm hl
  rw [g3.symm] at g6 hr ht ho
  have hkp := timedVia_keeping hr ht
  obtain ⟨s'', hw⟩ := tabled g1 g2 g4 hm.distinct hkp
  have hL : ∀ u v, Passes E (eventsAll boxed E.opts.propCuts marked) c'.cuts u v → u ∈ datas net' := by
    intro u v hp
    obtain ⟨a, a1, _, _, _, a2, _⟩ := passes_hops hw.whole hp
    exact List.mem_map.2 ⟨a, a1, a2⟩
  refine ⟨net', c', s'', g4, rfl, g3, hw, ?_⟩
  rw [← g3]
  have hreg := registerVia_touched hr ht ho hf hf' hT hs hs' hv hv' ha hz _ hL g6
  have key : ∃ v n, HeededVia E (eventsAll boxed E.opts.propCuts marked) c'.cuts via σ σ' t v ∧
      PtNode (eventsAll boxed E.opts.propCuts marked) s'' net' v n ∧
      GivenVia E (eventsAll boxed E.opts.propCuts marked) net' b x j n ∧
      (Clocked b → ¬ OnIface E (eventsAll boxed E.opts.propCuts marked) x →
        PtNode (eventsAll boxed E.opts.propCuts marked) s'' net' (.reg x) n) := by
    rcases hx with hx | ⟨hx, hwr⟩
    · by_cases hon : OnIface E (eventsAll boxed E.opts.propCuts marked) x
      · obtain ⟨loc, l1, l2⟩ := (hreg t b hb x j hx hne).2 hon
        obtain ⟨s, W, hv0, hd⟩ := hw.whole.done
        obtain ⟨st, bd, n, d1, d2, d3, n1, n2, n3, _⟩ := hd.regs b hb hx.1 x j loc l1
        have n5 := hw.whole.late.nodes n n1
        have n4 : net'.data n = .assignment loc := by rw [hw.whole.late.data n n1, n2]
        exact ⟨_, n, l2, ⟨n5, n4⟩, ⟨n5, fun _ h => absurd hon h, fun _ => ⟨loc, l1, n4⟩⟩, fun _ h => absurd hon h⟩
      · obtain ⟨st, k1, _, k3, k4, _⟩ := reg_node hw hkp hb hx hon
        exact ⟨.reg x, st, (hreg t b hb x j hx hne).1 hon, k1,
          ⟨k3, fun _ _ => k4, fun h => absurd h (by rintro (h | h); exacts [h hx.1, hon h])⟩, fun _ _ => k1⟩
    · obtain ⟨loc, l1, l2⟩ := comb_touched hr ht ho hf hs.stable hs'.stable hv hv' _ hL g6 (hreg t) hb hx hwr hne
      obtain ⟨s, W, hv0, hd⟩ := hw.whole.done
      obtain ⟨d, h1, n, n1, rfl, n2⟩ := (hd.defs x j loc).2 (.inr ⟨b, hb, hx, l1⟩)
      have n3 := hw.whole.late.nodes n n1
      have n4 : net'.data n = .assignment loc := by rw [hw.whole.late.data n n1, n2]
      exact ⟨_, n, l2, ⟨n3, n4⟩, ⟨n3, fun h => absurd h hx, fun _ => ⟨loc, l1, n4⟩⟩, fun h => absurd h hx⟩
  obtain ⟨v, n, ⟨t', l2, s, q, z, i, u, l3, l4, l5, l6, l7, l7', l8⟩, n1, n2, n3⟩ := key
  obtain ⟨m, m1, m2⟩ := movesVia_reach hw hkp hg l8 n1
  exact ⟨t', l2, s, q, z, i, u, l3, l4, l5, l6, l7, l7', m, n, m1, n2, n3, m2⟩

/-- C105. As C102, but blocks may fire at different times in the two observations, depending, in any way, on the
values that the signals in their event lists have had until then, as in C90. Only blocks that write registers on
interfaces have to fire at the same times (otherwise a path may be lacking, `clock_lost_on_interface`). If a bit
that a block gives its value ever differs, then at this time or before, a bit that comes from outside has differed,
and a path leads from a node that reads it, or a register that waits for it, to the node of the register of the bit or
of an assignment that can leave it its value. Paths may go through registers, clocks and interfaces.
Missing, besides these blocks: designs that are not regular or not timed, as in C102, and those where what a block
waits for comes over an interface. A register that is a clock is written as a whole. -/
theorem influence_through_clocks_via_partial {V : Type} {M : Meaning V} {E : TravEnv} {boxed : Str → Str → Bool}
    {ord : Tracker → List (Nat × Nat)} {top marked : List Member} {f : TextLoc → TextLoc}
    (h : Buildable E boxed ord top) {c : Col} {net : NetGraph} (hc : phase1 E top = .ok c)
    (hn : netlist E ord top = .ok net) (hm : Marked boxed E.opts.propCuts f marked top) (hl : combLoops net = [])
    {via : Nat → Nat → Nat × Nat} (hr : RegularVia E (eventsAll boxed E.opts.propCuts marked) c.cuts via)
    (ht : TimedVia E (eventsAll boxed E.opts.propCuts marked) c.cuts via)
    (ho : ClocksOff E (eventsAll boxed E.opts.propCuts marked) c.cuts)
    (hg : WholeClocks E.D (eventsAll boxed E.opts.propCuts marked))
    (hf : Faithful M E (eventsAll boxed E.opts.propCuts marked))
    (hf' : ∀ b ∈ blocksOf (eventsAll boxed E.opts.propCuts marked), Clocked b → Reflects M b.stmt)
    {T : (Nat → Vals V) → Nat → Deferred → Bool} (hT : Triggers E.D (eventsAll boxed E.opts.propCuts marked) T)
    {σ σ' : Nat → Vals V} (hs : Unrolls M E (eventsAll boxed E.opts.propCuts marked) (T σ) σ)
    (hs' : Unrolls M E (eventsAll boxed E.opts.propCuts marked) (T σ') σ')
    (hv : ∀ t, Shared E (eventsAll boxed E.opts.propCuts marked) via (σ t))
    (hv' : ∀ t, Shared E (eventsAll boxed E.opts.propCuts marked) via (σ' t))
    (ha : ∀ b ∈ blocksOf (eventsAll boxed E.opts.propCuts marked), ∀ x j, Kept b x j →
      OnIface E (eventsAll boxed E.opts.propCuts marked) x → ∀ t, T σ t b = T σ' t b)
    (hz : ∀ b ∈ blocksOf (eventsAll boxed E.opts.propCuts marked), ∀ x j, Kept b x j → σ 0 x j = σ' 0 x j)
    {b : Deferred} (hb : b ∈ blocksOf (eventsAll boxed E.opts.propCuts marked)) {x j t : Nat} (hx : ValueFrom b x j)
    (hne : σ t x j ≠ σ' t x j) :
    ∃ net', netlist E ord marked = .ok net' ∧ net = moveNet f net' ∧
      ∃ t' ≤ t, ∃ s q z i u, OuterSource E (eventsAll boxed E.opts.propCuts marked) c.cuts via s q ∧
      ¬ HeldVia E (eventsAll boxed E.opts.propCuts marked) c.cuts via s q ∧ σ t' s q ≠ σ' t' s q ∧
      Brings E (eventsAll boxed E.opts.propCuts marked) s q z i ∧
      Heeds E.D (eventsAll boxed E.opts.propCuts marked) z i u ∧
      ∃ m n, IsAt E.D net' u m ∧ GivenVia E (eventsAll boxed E.opts.propCuts marked) net' b x j n ∧
        Reach (Joined net) m n := by
  obtain ⟨net', c', s'', g1, rfl, g3, hw, t', l1, s, q, z, i, u, l2, l3, l4, l5, l6, l6', m, n, m1, n1, _, l7⟩ :=
    influence_clocks_via h hc hn hm hl hr ht ho hg hf hf' hT hs hs' hv hv' ha hz hb hx hne
  exact ⟨net', g1, rfl, t', l1, s, q, z, i, u, l2, l3, l4, l5, l6, m, n,
    heeds_is hw (g3 ▸ timedVia_keeping hr ht) l6 l6' m1, n1, l7⟩

/-- C105, from input ports to an output port, in terms of the answers of the tool: if it reports no
combinational loop, and answers every query for a path from a node of an input port with a bit that ever
differs (also one that serves as a clock) to a node of output port `p` with bit `j` by the empty path, then bit
`j` of the output is always the same. -/
theorem no_path_same_clocked_via_partial {V : Type} {M : Meaning V} {E : TravEnv} {boxed : Str → Str → Bool}
    {ord : Tracker → List (Nat × Nat)} {top marked : List Member} {f : TextLoc → TextLoc}
    (h : Buildable E boxed ord top) {c : Col} {net : NetGraph} (hc : phase1 E top = .ok c)
    (hn : netlist E ord top = .ok net) (hm : Marked boxed E.opts.propCuts f marked top) (hl : combLoops net = [])
    {via : Nat → Nat → Nat × Nat} (hr : RegularVia E (eventsAll boxed E.opts.propCuts marked) c.cuts via)
    (ht : TimedVia E (eventsAll boxed E.opts.propCuts marked) c.cuts via)
    (ho : ClocksOff E (eventsAll boxed E.opts.propCuts marked) c.cuts)
    (hg : WholeClocks E.D (eventsAll boxed E.opts.propCuts marked))
    (hf : Faithful M E (eventsAll boxed E.opts.propCuts marked))
    (hf' : ∀ b ∈ blocksOf (eventsAll boxed E.opts.propCuts marked), Clocked b → Reflects M b.stmt)
    {T : (Nat → Vals V) → Nat → Deferred → Bool} (hT : Triggers E.D (eventsAll boxed E.opts.propCuts marked) T)
    {σ σ' : Nat → Vals V} (hs : Unrolls M E (eventsAll boxed E.opts.propCuts marked) (T σ) σ)
    (hs' : Unrolls M E (eventsAll boxed E.opts.propCuts marked) (T σ') σ')
    (hv : ∀ t, Shared E (eventsAll boxed E.opts.propCuts marked) via (σ t))
    (hv' : ∀ t, Shared E (eventsAll boxed E.opts.propCuts marked) via (σ' t))
    (ha : ∀ b ∈ blocksOf (eventsAll boxed E.opts.propCuts marked), ∀ x j, Kept b x j →
      OnIface E (eventsAll boxed E.opts.propCuts marked) x → ∀ t, T σ t b = T σ' t b)
    (hz : ∀ b ∈ blocksOf (eventsAll boxed E.opts.propCuts marked), ∀ x j, Kept b x j → σ 0 x j = σ' 0 x j)
    (hp : ∀ t s q, OuterSource E (eventsAll boxed E.opts.propCuts marked) c.cuts via s q →
      ¬ HeldVia E (eventsAll boxed E.opts.propCuts marked) c.cuts via s q → σ t s q ≠ σ' t s q →
      Bare (eventsAll boxed E.opts.propCuts marked) s ∧ E.D.kind s ≠ .modportPort ∧
        ∃ p, LastSupply (eventsAll boxed E.opts.propCuts marked) s q p) {b : Deferred}
    (hb : b ∈ blocksOf (eventsAll boxed E.opts.propCuts marked)) {x j : Nat} (hx' : ValueFrom b x j) {p : PortDecl}
    (hpo : .port p ∈ eventsAll boxed E.opts.propCuts marked) (hx : E.D.port x = some p.sym) {lo hi : Int}
    (hsp : Spans E c.cuts p x lo hi)
    (hin : ∀ w ∈ allWrites b.stmt, w.sym = x → InRng w.bounds j → lo ≤ w.bounds.lower ∧ w.bounds.upper ≤ hi)
    (hno : ∀ (t s q n m : Nat) p', LastSupply (eventsAll boxed E.opts.propCuts marked) s q p' → σ t s q ≠ σ' t s q →
      PortNode E.D net p' q n → PortNode E.D net p j m → p'.dir ≠ p.dir ∧ findPath net n m = some []) (t : Nat) :
    σ t x j = σ' t x j := by
  refine Classical.byContradiction fun hne => ?_
  obtain ⟨net', c', s'', g4, rfl, g3, hw, t', l1, s, q, z, i, u, l2, l3, l4, l5, l6, l6', m, n, m1, n1, n2, hmn⟩ :=
    influence_clocks_via h hc hn hm hl hr ht ho hg hf hf' hT hs hs' hv hv' ha hz hb hx' hne
  rw [← g3] at hr ht hsp
  have hkp := timedVia_keeping hr ht
  obtain ⟨p1, p2, p', p3⟩ := hp t' s q l2 l3 l4
  obtain ⟨a, ⟨a1, y, bd, a2, a3, a4⟩, a7⟩ := port_heeded hw hkp p3 p1 p2 l5 l6 l6' m1
  have hto : ∃ e ∈ c'.b.vars p.sym, e.lo ≤ j ∧ (j : Int) ≤ e.hi ∧ Reach (Joined net') n e.val := by
    by_cases hreg : Clocked b ∧ ¬ OnIface E (eventsAll boxed E.opts.propCuts marked) x
    · rcases hx' with hk | ⟨hk, _⟩
      · obtain ⟨loc, l1'⟩ := keeping_leaves hkp hb hk
        obtain ⟨e, e1, e2, e3, k, e4, e5, _, e7⟩ := leave_port hw.whole hb l1' hin hpo hx hsp
        obtain ⟨⟨bd', _, _, f3, f4, f5⟩, _⟩ := e7 hk.1
        obtain ⟨st, _, q2, _⟩ := reg_node hw hkp hb hk hreg.2
        obtain ⟨hc', w, w1, _, rfl, _⟩ := hk
        obtain ⟨⟨r1, r2, _⟩, _⟩ := hkp.kept b hb hc' w w1 hreg.2
        obtain rfl := whole_range r2 r1 f3 f4
        have : k = n := (q2 k ⟨b, hb, hc', w, w1, rfl, f5⟩).trans (q2 n (n2 hc' hreg.2)).symm
        subst this
        exact ⟨e, e1, e2, e3, Reach.refl.tail e5⟩
      · exact absurd hreg.1 hk
    · obtain ⟨n3, _, n4⟩ := n1
      obtain ⟨loc, l1', n5⟩ := n4 (by grind)
      obtain ⟨e, e1, e2, e3, k, e4, e5, e6, e7⟩ := leave_port hw.whole hb l1' hin hpo hx hsp
      refine ⟨e, e1, e2, e3, ?_⟩
      by_cases hk : Clocked b
      · obtain ⟨n', f1, f2, f3⟩ := (e7 hk).2
        obtain rfl := hw.one n' f1 n n3 (f2.trans n5.symm) (by rw [n5]; exact .inl rfl)
        exact (Reach.refl.tail f3).tail e5
      · obtain rfl := hw.one k e4 n n3 ((e6 hk).trans n5.symm) (by rw [n5]; exact .inl rfl)
        exact Reach.refl.tail e5
  obtain ⟨e, e1, e2, e3, hto⟩ := hto
  have hen := (hw.whole.walk.eff.fine.ok.vars p.sym e e1).1
  have hdat : net'.data e.val = .port (E.D.ref x).name (E.D.ref x).path (E.D.ref x).loc p.dir ⟨e.lo, e.hi⟩ := by
    rw [hw.whole.early.data _ hen, (port_at hw.whole.walk hpo).2.1 x hsp.1 e e1]; rfl
  have hpn : PortNode E.D (moveNet f net') p j e.val := by
    refine ⟨hw.whole.early.nodes _ hen, x, ⟨e.lo, e.hi⟩, hsp.1, (inRng_iff _ _).2 ?_, ?_⟩
    · simp only [BitRange.lower, BitRange.upper]; omega
    · show moveData f (net'.data e.val) = _
      rw [hdat]; rfl
  have hpa : PortNode E.D (moveNet f net') p' q a := by
    refine ⟨a1, y, bd, a2, a3, ?_⟩
    show moveData f (net'.data a) = _
    rw [a4]; rfl
  obtain ⟨hdir, hq⟩ := hno t' s q a e.val p' p3 l4 hpa hpn
  have hne : a ≠ e.val := by
    rintro rfl
    rw [a4] at hdat
    injection hdat with _ _ _ hd _
    exact hdir hd
  obtain ⟨path, f1, _, f3⟩ := path_answers h.design h.visits hn a1 hne
  rw [hq] at f1
  cases f1
  exact f3 rfl (show Reach (Joined net') _ _ from reach_trans (reach_trans a7 hmn) hto)

/-! ### A concrete design
```
interface I; logic [7:0] m; modport p(output m); modport c(input m); endinterface
module t(input [7:0] a, c, output [7:0] y, w, input clk); I i(); logic [7:0] k, q;
  assign k = a;                                                       // line 1
  prod: always_ff @(posedge clk) i.m <= c;                            // line 6
  cons: always_ff @(posedge k) q <= i.m;                              // line 2
  assign y = q;                                                       // line 4
  assign w = c;                                                       // line 5
```
The insides of the ports are the signals 0, 3, 1 and 4, `q` is signal 2, `k` is signal 10, `clk` is signal 9, the
modport ports are the signals 30 and 31, and the variable `m` is signal 32. -/

def itB1 : Deferred := .procedural .alwaysFF (.timed (.signalEvent ⟨.posEdge, some 9⟩))
  (.assign (tkAt 6) false (.aligned [⟨[dsRef 30], [.lsp (dsRef 3)], tkAt 6⟩]))
def itB2 : Deferred := .procedural .alwaysFF (.timed (.signalEvent ⟨.posEdge, some 10⟩))
  (.assign (tkAt 2) false (.aligned [⟨[dsRef 2], [.lsp (dsRef 31)], tkAt 2⟩]))

def itTop : List Member := [.inst false ['t'] ['t'] [.port (hdIn 20 0), .port (hdIn 22 3), .port (hdOut 21 1),
  .port (hdOut 23 4), .inst false ['I'] ['t', '.', 'i'] [.variable 32 true [(0, 7)]] [],
  .block tkB0, .block itB1, .block itB2, .block tkB2, .block tkB3] []]

def itEvents : List Event := [.port (hdIn 20 0), .port (hdIn 22 3), .port (hdOut 21 1), .port (hdOut 23 4),
  .variable 32 [(0, 7)], .block tkB0, .block itB1, .block itB2, .block tkB2, .block tkB3]

def itCol : Col := (phase1 ivE itTop).toOption.getD {}
def itNet : NetGraph := (netlist ivE Tracker.slots itTop).toOption.getD {}

theorem it_events : eventsAll hdBoxed ivE.opts.propCuts itTop = itEvents := by
  show eventsAll hdBoxed true itTop = itEvents
  simp [itTop, eventsAll, events, hdBoxed, itEvents]

theorem it_blocks : blocksOf itEvents = [tkB0, itB1, itB2, tkB2, tkB3] := rfl

theorem it_elab : Elaborated ivE hdBoxed itTop where
  boxes := by simp [DecidesBoxes, Boxed, hdBoxed, ivE, hdE]
  ok := by
    rw [it_events]
    simp [itEvents, EventOk, hdIn, hdOut, PortDriver.hi, ivE, ivD, hdE, hdD]
  once := by
    rw [it_events]
    show [20, 22, 21, 23, 32].Nodup
    decide

theorem it_phase1 : phase1 ivE itTop = .ok itCol := by
  obtain ⟨c, h, _⟩ := phase1_total_partial it_elab
  rw [itCol, h]; rfl

theorem it_build : Buildable ivE hdBoxed Tracker.slots itTop where
  design := it_elab
  plain := by
    intro c hc
    rw [it_phase1] at hc
    exact Except.ok.inj hc ▸
      plain_of_two (lo := 0) (mid := 3) (hi := 7) (by decide) (by decide) (by decide +kernel) (by decide) (by decide)
  live := by
    rw [it_events, it_blocks]
    intro b hb; simp at hb; rcases hb with rfl | rfl | rfl | rfl | rfl <;> decide
  events := by
    rw [it_events, it_blocks]
    intro b hb; simp at hb
    rcases hb with rfl | rfl | rfl | rfl | rfl
    · trivial
    · simp [itB1, PlainEvents, SignalEventsOnly, eventsOf, PlainClocks]
    · simp [itB2, PlainEvents, SignalEventsOnly, eventsOf, PlainClocks]
    · trivial
    · trivial
  visits := fun _ => List.Perm.refl _
  ports := by
    rw [it_events, it_blocks]
    have : ∀ b ∈ [tkB0, itB1, itB2, tkB2, tkB3], ∀ w ∈ allWrites b.stmt, w.sym < 20 ∨ w.sym = 30 := by
      intro b hb; simp at hb; rcases hb with rfl | rfl | rfl | rfl | rfl <;> decide
    intro p hp b hb w hw
    have := this b hb w hw
    simp [itEvents, hdIn, hdOut] at hp
    rcases hp with rfl | rfl | rfl | rfl <;> simp only <;> omega

theorem it_net : netlist ivE Tracker.slots itTop = .ok itNet := by
  obtain ⟨_, _, net, _, _, _, _, h, _⟩ := netlist_total_partial it_build
  rw [itNet, h]; rfl

theorem it_marked : Marked hdBoxed ivE.opts.propCuts id itTop itTop :=
  ⟨rfl, distinct_of_nodup (by rw [it_events]; decide +kernel)⟩

theorem it_loops : combLoops itNet = [] := by decide +kernel

theorem it_clocked {b : Deferred} (hb : b = itB1 ∨ b = itB2) : Clocked b := by
  rcases hb with rfl | rfl
  · exact ⟨⟨_, List.mem_singleton.2 rfl, by decide⟩, by simp [itB1, blockEvents, eventsOf]⟩
  · exact ⟨⟨_, List.mem_singleton.2 rfl, by decide⟩, by simp [itB2, blockEvents, eventsOf]⟩

theorem it_clear {b : Deferred} (hb : b = tkB0 ∨ b = tkB2 ∨ b = tkB3) : ¬ Clocked b := by
  rcases hb with rfl | hb
  · exact tk_assign
  · exact tk_clear (by simpa using hb)

theorem it_comb {b : Deferred} (hb : b ∈ blocksOf itEvents) (hc : ¬ Clocked b) : b = tkB0 ∨ b = tkB2 ∨ b = tkB3 := by
  rw [it_blocks] at hb; simp at hb
  rcases hb with h | h | h | h
  · exact .inl h
  · exact absurd (it_clocked (.inl h)) hc
  · exact absurd (it_clocked (.inr h)) hc
  · exact .inr h

theorem it_reg {b : Deferred} (hb : b ∈ blocksOf itEvents) (hc : Clocked b) : b = itB1 ∨ b = itB2 := by
  rw [it_blocks] at hb; simp at hb
  rcases hb with h | h | h | h
  · exact absurd hc (it_clear (.inl h))
  · exact .inl h
  · exact .inr h
  · exact absurd hc (it_clear (.inr h))

theorem it_declares {y : Nat} (h : y < 20) : ∀ ev ∈ itEvents, y ∉ declares ev := by
  intro ev hev hy
  simp [itEvents] at hev
  rcases hev with rfl | rfl | rfl | rfl | rfl | rfl | rfl | rfl | rfl | rfl <;> simp [declares, hdIn, hdOut] at hy <;>
    omega

theorem it_write1 {w : Wr} (hw : w ∈ allWrites itB1.stmt) : w = ⟨30, ⟨0, 7⟩, tkAt 6, false⟩ := by
  simpa [itB1, Deferred.stmt, allWrites, asgWrites, dsRef] using hw

theorem it_write2 {w : Wr} (hw : w ∈ allWrites itB2.stmt) : w = ⟨2, ⟨0, 7⟩, tkAt 2, false⟩ := by
  simpa [itB2, Deferred.stmt, allWrites, asgWrites, dsRef] using hw

theorem it_bare {y : Nat} (h : y < 20) (h2 : y ≠ 2) : Bare itEvents y := by
  refine ⟨it_declares h, fun b hb hc w hw => ?_⟩
  rcases it_reg hb hc with rfl | rfl
  · rw [it_write1 hw]; simp only; omega
  · rw [it_write2 hw]; simp only; omega

theorem it_on {y : Nat} : OnIface ivE itEvents y ↔ y = 30 ∨ y = 31 ∨ y = 32 := by
  constructor
  · rintro (h | ⟨ds, h⟩)
    · by_cases h1 : y = 30 ∨ y = 31
      · omega
      · by_cases h2 : y = 32 <;> simp [ivE, ivD, h1, h2] at h
    · simp [itEvents] at h; omega
  · rintro (rfl | rfl | rfl)
    · exact .inl rfl
    · exact .inl rfl
    · exact .inr ⟨[(0, 7)], by simp [itEvents]⟩

theorem it_no_conn {p : PortDecl} {k : Conn} : ¬ Before itEvents p k := by
  intro h
  have := (before_mem h).2
  simp [itEvents] at this

theorem it_no_inlet {y q x j : Nat} : ¬ Inlet ivE itEvents y q x j := by
  rintro ⟨p, k, _, h, _⟩
  exact it_no_conn h.1

theorem it_no_up {prev : Option Conn} {x y j q : Nat} {lo hi : Int} {cuts : CutReg} :
    ¬ Up ivE itEvents cuts prev x lo hi j y q := by
  intro h
  cases h with
  | one h => obtain ⟨p, _, h, _⟩ := h; exact it_no_conn h.1
  | more h _ => obtain ⟨p, _, h, _⟩ := h; exact it_no_conn h.1

theorem it_assigned {y q : Nat} {cuts : CutReg} (h : Assigned ivE itEvents cuts y q) : y = 1 ∨ y = 4 ∨ y = 10 := by
  obtain ⟨b, hb, hc, x, j, ⟨w, hw, _, hx, _⟩, h⟩ := h
  rcases h with ⟨_, rfl, _⟩ | ⟨_, _, _, h⟩
  · have : ∀ b ∈ [tkB0, tkB2, tkB3], ∀ w ∈ allWrites b.stmt, w.sym = 1 ∨ w.sym = 4 ∨ w.sym = 10 := by
      intro b hb; simp at hb; rcases hb with rfl | rfl | rfl <;> decide
    rw [← hx]; exact this b (by simpa using it_comb hb hc) w hw
  · exact absurd h it_no_up

theorem it_driven {q : Nat} {d : Nat × Nat} (h : DrivenRange itEvents 32 q d) : d = (0, 7) := by
  obtain ⟨_, _, ds, h1, h2⟩ := h
  simp [itEvents] at h1
  subst h1
  simpa using h2

theorem it_regular (cuts : CutReg) : RegularVia ivE itEvents cuts ivVia where
  comb := by
    intro b hb hc
    rcases it_comb hb hc with rfl | rfl | rfl <;> exact comb_single (by decide)
  settled := by
    intro b hb hc
    rcases it_comb hb hc with rfl | rfl | rfl <;> exact settled_apart (by decide) (by decide)
  complete := by
    intro b hb hc x p ⟨w, hw, hh⟩ tr ht
    rcases it_comb hb hc with rfl | rfl | rfl <;> cases ht <;> exact ⟨w, hw, hh⟩
  assigned := by
    intro y q h
    rcases it_assigned h with rfl | rfl | rfl <;> exact .inr ⟨it_bare (by decide) (by decide), by decide⟩
  inlets := fun y q x j h => absurd h it_no_inlet
  wired := fun p k x j y q _ h => absurd h.1 it_no_conn
  outlets := fun p k e h => absurd h it_no_conn
  inside := by
    rintro x j y q ⟨p, k, e, _, h, _⟩
    exact absurd h.1 it_no_conn
  nested := ⟨fun _ => 0, fun y q x j h => absurd h it_no_inlet⟩
  reads := by
    intro b hb hc who r Q hu hon
    have hr := use_in hu
    rw [it_on] at hon
    rcases it_comb hb hc with rfl | rfl | rfl <;> simp [tkB0, tkB2, tkB3, Deferred.stmt, readsOf] at hr <;> subst hr <;>
      simp [dsRef] at hon
  writes := by
    intro b hb hc y i ⟨w, hw, _, hy, _⟩ hon
    rw [it_on] at hon
    have : ∀ b ∈ [tkB0, tkB2, tkB3], ∀ w ∈ allWrites b.stmt, w.sym < 20 := by
      intro b hb; simp at hb; rcases hb with rfl | rfl | rfl <;> decide
    have := this b (by simpa using it_comb hb hc) w hw
    omega
  clocks := by
    intro x ds h b hb hc w hw
    simp [itEvents] at h
    rcases it_reg hb hc with rfl | rfl
    · rw [it_write1 hw]; simp only; omega
    · rw [it_write2 hw]; simp only; omega

theorem it_kept {b : Deferred} {x j : Nat} (hb : b ∈ blocksOf itEvents) (h : Kept b x j) :
    ((b = itB1 ∧ x = 30) ∨ (b = itB2 ∧ x = 2)) ∧ j ≤ 7 := by
  obtain ⟨hc, w, hw, _, h1, h2⟩ := h
  rcases it_reg hb hc with rfl | rfl
  · obtain rfl := it_write1 hw
    exact ⟨.inl ⟨rfl, h1.symm⟩, by have := (eight.1 h2).2; omega⟩
  · obtain rfl := it_write2 hw
    exact ⟨.inr ⟨rfl, h1.symm⟩, by have := (eight.1 h2).2; omega⟩

theorem it_timed (cuts : CutReg) : TimedVia ivE itEvents cuts ivVia where
  sync := by
    intro b hb hc
    rcases it_reg hb hc with rfl | rfl
    · refine .assign fun l r h => fits_same fun w hw _ => ?_
      rw [it_write1 hw]
      cases h with
      | seg h1 h2 h3 => simp at h1; subst h1; simp at h2; subst h2; cases h3; rfl
    · refine .assign fun l r h => fits_same fun w hw _ => ?_
      rw [it_write2 hw]
      cases h with
      | seg h1 h2 h3 => simp at h1; subst h1; simp at h2; subst h2; cases h3; rfl
  count := by
    intro b hb hc who r Q hu p hp
    have : ∀ b ∈ [itB1, itB2], ∀ x ∈ usesOf b.stmt, x.2.bounds = ⟨0, 7⟩ := by
      intro b hb; simp at hb; rcases hb with rfl | rfl <;> decide
    rw [this b (by simpa using it_reg hb hc) _ (use_of hu)] at hp
    exact (eight.1 hp).1
  kept := by
    intro b hb hc w hw hon
    rcases it_reg hb hc with rfl | rfl
    · rw [it_write1 hw] at hon
      exact absurd (it_on.2 (.inl rfl)) hon
    · obtain rfl := it_write2 hw
      refine ⟨⟨by decide, fun v hv _ => by rw [it_write2 hv], fun b' h' who r Q hu _ => ?_⟩,
        ⟨by decide, it_declares (by decide), ⟨[tkB0, itB1], [tkB2, tkB3], rfl, ?_⟩,
          fun _ _ _ _ _ _ h => absurd h.1 it_no_conn⟩⟩
      · have : ∀ b ∈ [tkB0, itB1, itB2, tkB2, tkB3], ∀ x ∈ usesOf b.stmt, x.2.bounds = ⟨0, 7⟩ := by
          intro b hb; simp at hb; rcases hb with rfl | rfl | rfl | rfl | rfl <;> decide
        exact this b' h' _ (use_of hu)
      · intro b' hb' hc' v hv
        simp at hb'
        rcases hb' with h | rfl | h
        · exact absurd hc' (it_clear (.inl h))
        · rw [it_write1 hv]; decide
        · exact absurd hc' (it_clear (.inr h))
  outs := by
    intro b hb x j y q hk h
    rcases h with ⟨h, _⟩ | ⟨_, _, _, h⟩
    · exact absurd hk.1 h
    · exact absurd h it_no_up
  last := by
    intro b hb hc x p loc hl w hw hh
    refine .inl ?_
    have key : ∀ v : Wr, nbaWrites true b.stmt = [v] → w = v → w.loc = loc := by
      rintro v hn rfl
      rcases hl with ⟨pre, v', post, h1, _, h3, _⟩ | ⟨h, _⟩
      · rw [hn] at h1
        obtain ⟨_, rfl, _⟩ := single_split h1
        exact h3
      · exact absurd hh (h _ (by rw [hn]; simp))
    rcases it_reg hb hc with rfl | rfl
    · exact key _ (by decide) (it_write1 hw)
    · exact key _ (by decide) (it_write2 hw)
  reads := by
    intro b hb hc who r Q hu hon i hi hno
    have hr := use_in hu
    rw [it_on] at hon
    rcases it_reg hb hc with rfl | rfl <;> simp [itB1, itB2, Deferred.stmt, readsOf] at hr <;> subst hr
    · simp [dsRef] at hon
    · have hi' : 0 ≤ (i : Int) ∧ (i : Int) ≤ 7 := eight.1 hi
      exact ⟨(0, 7), ⟨by simp, by simp [ivVia, dsRef]; omega, [(0, 7)], by simp [itEvents, ivVia, dsRef], by simp⟩,
        .inl ⟨rfl, List.mem_singleton.2 rfl, i, hi, hno⟩⟩
  writes := by
    intro b hb y i hk hon d hd
    rw [it_on] at hon
    obtain ⟨⟨rfl, rfl⟩ | ⟨rfl, rfl⟩, _⟩ := it_kept hb hk
    · obtain rfl : d = (0, 7) := it_driven (q := (ivVia 30 i).2) hd
      exact .inl ⟨rfl, fun e => List.mem_singleton.2 rfl⟩
    · omega

/-- The blocks wait for signals 9 and 10. -/
theorem it_waits {b : Deferred} (hb : b ∈ blocksOf itEvents) {v : SigEvent} (hv : v ∈ blockEvents b) {z : Nat}
    (hz : v.signal = some z) : z = 9 ∨ z = 10 := by
  rw [it_blocks] at hb; simp at hb
  rcases hb with rfl | rfl | rfl | rfl | rfl
  · cases hv
  · simp [itB1, blockEvents, eventsOf] at hv
    subst hv; cases hz; exact .inl rfl
  · simp [itB2, blockEvents, eventsOf] at hv
    subst hv; cases hz; exact .inr rfl
  · cases hv
  · cases hv

theorem it_off (cuts : CutReg) : ClocksOff ivE itEvents cuts where
  waits := by
    rintro b hb z i ⟨v, v1, v2, _⟩ y q h hon
    cases h with
    | refl =>
      rw [it_on] at hon
      rcases it_waits hb v1 v2 with rfl | rfl <;> omega
    | step h _ => exact it_no_inlet h
  inner := by
    rintro b hb x j hk _ y q (⟨h, _⟩ | ⟨_, _, _, h⟩)
    · exact h hk.1
    · exact it_no_up h

theorem it_clocks : WholeClocks ivE.D itEvents := by
  intro b hb v hv z hz b' hb' hc' w hw hs
  have h1 := it_waits hb hv hz
  rcases it_reg hb' hc' with rfl | rfl
  · rw [it_write1 hw] at hs; simp only at hs; omega
  · rw [it_write2 hw] at hs; simp only at hs; omega

/-- What the lines compute. -/
def itM : Meaning Bool where
  value := fun loc ρ _ p => decide (0 ≤ p ∧ p ≤ 7) && if loc.line = 1 then ρ 0 p else if loc.line = 2 then ρ 31 p
    else if loc.line = 4 then ρ 2 p else if loc.line = 5 ∨ loc.line = 6 then ρ 3 p else false
  pick := fun _ _ _ _ => false
  feed := fun _ _ _ => false

/-- The values when `c` is always 1 and `a` becomes `v` at time 1, and with it the clock of `q`: `i.m` is 1 from time
1 on, and `q` becomes `v` at time 2. -/
def itVals (v : Bool) (t : Nat) : Vals Bool := fun x p =>
  decide (0 ≤ p ∧ p ≤ 7) && if x = 0 ∨ x = 10 then v && decide (1 ≤ t) else if x = 1 ∨ x = 2 then v && decide (2 ≤ t)
    else if 30 ≤ x ∧ x ≤ 32 then decide (1 ≤ t) else decide (x = 3 ∨ x = 4)

/-- `clk` always has an edge, `k` if bit 0 rises. -/
def itFire (σ : Nat → Vals Bool) (t : Nat) (b : Deferred) : Bool :=
  match (blockEvents b).map (·.signal), t with
  | [some 9], _ => true
  | [some 10], t + 1 => !σ t 10 0 && σ (t + 1) 10 0
  | _, _ => false

theorem it_triggers : Triggers ivE.D itEvents itFire := by
  intro b hb t σ σ' h
  rw [it_blocks] at hb; simp at hb
  rcases hb with rfl | rfl | rfl | rfl | rfl
  · rfl
  · rfl
  · have key : ∀ t' ≤ t, σ t' 10 0 = σ' t' 10 0 := fun t' h' => h t' h' 10 0
      ⟨⟨.posEdge, some 10⟩, by simp [itB2, blockEvents, eventsOf], rfl, by decide⟩
    cases t with
    | zero => rfl
    | succ t =>
      show (!σ t 10 0 && σ (t + 1) 10 0) = (!σ' t 10 0 && σ' (t + 1) 10 0)
      rw [key t (by omega), key (t + 1) (by omega)]
  · rfl
  · rfl

theorem it_shared (v : Bool) (t : Nat) : Shared ivE itEvents ivVia (itVals v t) := by
  intro y i h
  rcases it_on.1 h with rfl | rfl | rfl <;> rfl

theorem it_faithful : Faithful itM ivE itEvents where
  blocks := by
    intro b hb hc
    rcases it_comb hb hc with rfl | rfl | rfl <;> intro l hl <;> simp [asgLocs] at hl <;> subst hl
    · exact looks_lsp (g := ⟨[dsRef 10], [.lsp (dsRef 0)], tkAt 1⟩) (n := 0) (by simp) (by simp) (fun _ _ _ => by simp [itM, tkAt])
    · exact looks_lsp (g := ⟨[dsRef 1], [.lsp (dsRef 2)], tkAt 4⟩) (n := 2) (by simp) (by simp) (fun _ _ _ => by simp [itM, tkAt])
    · exact looks_lsp (g := ⟨[dsRef 4], [.lsp (dsRef 3)], tkAt 5⟩) (n := 3) (by simp) (by simp) (fun _ _ _ => by simp [itM, tkAt])
  inlets := fun x j ρ ρ' _ => rfl

theorem it_reflects : ∀ b ∈ blocksOf itEvents, Clocked b → Reflects itM b.stmt := by
  intro b hb hc
  rcases it_reg hb hc with rfl | rfl <;> intro l hl <;> simp [asgLocs] at hl <;> subst hl
  · exact looks_lsp (g := ⟨[dsRef 30], [.lsp (dsRef 3)], tkAt 6⟩) (n := 3) (by simp) (by simp) (fun _ _ _ => by simp [itM, tkAt])
  · exact looks_lsp (g := ⟨[dsRef 2], [.lsp (dsRef 31)], tkAt 2⟩) (n := 31) (by simp) (by simp) (fun _ _ _ => by simp [itM, tkAt])

theorem it_unrolls (v : Bool) : Unrolls itM ivE itEvents (itFire (itVals v)) (itVals v) where
  stable := fun t => {
    blocks := by
      intro b hb hc x p ⟨w, hw, hh⟩
      obtain ⟨_, h1, h2⟩ := hh
      rcases it_comb hb hc with rfl | rfl | rfl <;>
        simp [tkB0, tkB2, tkB3, Deferred.stmt, allWrites, asgWrites, dsRef] at hw <;> subst hw <;>
        have h3 := eight.1 h2 <;> simp only at h1 <;> subst h1 <;>
        simp [tkB0, tkB2, tkB3, Deferred.stmt, run, store, asgWrites, dsRef, itM, itVals, BitRange.lower,
          BitRange.upper, tkAt, h3]
    inlets := fun y q x j h => absurd h it_no_inlet
    outlets := by
      rintro x j y q ⟨p, k, e, _, h, _⟩
      exact absurd h.1 it_no_conn }
  step := by
    intro t b hb x j hk
    obtain ⟨⟨rfl, rfl⟩ | ⟨rfl, rfl⟩, hj⟩ := it_kept hb hk
    · have h3 : (0 : Int) ≤ j ∧ (j : Int) ≤ 7 := by omega
      rw [show itFire (itVals v) t itB1 = true from rfl, if_pos rfl]
      simp [itB1, Deferred.stmt, later, store, asgWrites, dsRef, itM, itVals, BitRange.lower, BitRange.upper, tkAt, h3]
      omega
    · have h3 : (0 : Int) ≤ j ∧ (j : Int) ≤ 7 := by omega
      have hl : later itM itB2.stmt (fun _ => true) (itVals v t) (itVals v t) 2 j = decide (1 ≤ t) := by
        simp [itB2, Deferred.stmt, later, store, asgWrites, dsRef, itM, itVals, BitRange.lower, BitRange.upper, tkAt, h3]
        intro h
        exfalso
        omega
      rw [hl]
      rcases t with _ | _ | t
      · rw [show itFire (itVals v) 0 itB2 = false from rfl]
        simp [itVals]
      · rw [show itFire (itVals v) 1 itB2 = (!itVals v 0 10 0 && itVals v 1 10 0) from rfl]
        cases v <;> simp [itVals, h3]
      · rw [show itFire (itVals v) (t + 1 + 1) itB2 = (!itVals v (t + 1) 10 0 && itVals v (t + 1 + 1) 10 0) from rfl]
        cases v <;> simp [itVals, h3]

theorem it_alike : ∀ b ∈ blocksOf itEvents, ∀ x j, Kept b x j → OnIface ivE itEvents x →
    ∀ t, itFire (itVals false) t b = itFire (itVals true) t b := by
  intro b hb x j hk hon t
  rw [it_on] at hon
  obtain ⟨⟨rfl, _⟩ | ⟨_, rfl⟩, _⟩ := it_kept hb hk
  · rfl
  · omega

theorem it_init : ∀ b ∈ blocksOf itEvents, ∀ x j, Kept b x j → itVals false 0 x j = itVals true 0 x j := by
  intro b hb x j hk
  obtain ⟨⟨_, rfl⟩ | ⟨_, rfl⟩, _⟩ := it_kept hb hk <;> simp [itVals]

/-- Output `y` differs at time 2, because `q` is loaded over the interface in one case only, so there is a path. -/
example : ∃ net', netlist ivE Tracker.slots itTop = .ok net' ∧ itNet = moveNet id net' ∧
    ∃ t' ≤ 2, ∃ s q z i u, OuterSource ivE (eventsAll hdBoxed ivE.opts.propCuts itTop) itCol.cuts ivVia s q ∧
      ¬ HeldVia ivE (eventsAll hdBoxed ivE.opts.propCuts itTop) itCol.cuts ivVia s q ∧
      itVals false t' s q ≠ itVals true t' s q ∧
      Brings ivE (eventsAll hdBoxed ivE.opts.propCuts itTop) s q z i ∧
      Heeds ivE.D (eventsAll hdBoxed ivE.opts.propCuts itTop) z i u ∧
      ∃ m n, IsAt ivE.D net' u m ∧ GivenVia ivE (eventsAll hdBoxed ivE.opts.propCuts itTop) net' tkB2 1 0 n ∧
        Reach (Joined itNet) m n :=
  influence_through_clocks_via_partial (M := itM) it_build it_phase1 it_net it_marked it_loops
    (by rw [it_events]; exact it_regular _) (by rw [it_events]; exact it_timed _) (by rw [it_events]; exact it_off _)
    (by rw [it_events]; exact it_clocks) (by rw [it_events]; exact it_faithful)
    (by rw [it_events]; exact it_reflects) (T := itFire) (by rw [it_events]; exact it_triggers)
    (by rw [it_events]; exact it_unrolls false) (by rw [it_events]; exact it_unrolls true)
    (by rw [it_events]; exact it_shared false) (by rw [it_events]; exact it_shared true)
    (by rw [it_events]; exact it_alike) (by rw [it_events]; exact it_init)
    (b := tkB2) (by rw [it_events, it_blocks]; simp)
    (.inr ⟨it_clear (by simp), ⟨1, ⟨0, 7⟩, tkAt 4, true⟩, by decide, rfl, rfl, eight.2 (by decide)⟩) (by decide)

/-- What differs and comes from outside are bits of port `a`. -/
theorem it_sources {s q t : Nat} {cuts : CutReg} (h : OuterSource ivE itEvents cuts ivVia s q)
    (hh : ¬ HeldVia ivE itEvents cuts ivVia s q) (hne : itVals false t s q ≠ itVals true t s q) : s = 0 ∧ q ≤ 7 := by
  have h0 : (s = 0 ∨ s = 10 ∨ s = 1 ∨ s = 2) ∧ q ≤ 7 := by
    refine Classical.byContradiction fun hc => hne ?_
    unfold itVals
    by_cases h1 : s = 0 ∨ s = 10 ∨ s = 1 ∨ s = 2
    · rw [decide_eq_false (by omega : ¬ (0 ≤ (q : Int) ∧ (q : Int) ≤ 7))]
      rfl
    · simp only [if_neg (show ¬ (s = 0 ∨ s = 10) by omega), if_neg (show ¬ (s = 1 ∨ s = 2) by omega)]
  have g1 : s ≠ 1 := by
    rintro rfl
    exact h.1.1 ⟨tkB2, by rw [it_blocks]; simp, it_clear (by simp), 1, q,
      ⟨⟨1, ⟨0, 7⟩, tkAt 4, true⟩, by decide, rfl, rfl, eight.2 (by omega)⟩, .inl ⟨it_clear (by simp), rfl, rfl⟩⟩
  have g2 : s ≠ 10 := by
    rintro rfl
    exact h.1.1 ⟨tkB0, by rw [it_blocks]; simp, it_clear (by simp), 10, q,
      ⟨⟨10, ⟨0, 7⟩, tkAt 1, true⟩, by decide, rfl, rfl, eight.2 (by omega)⟩, .inl ⟨it_clear (by simp), rfl, rfl⟩⟩
  have g3 : s ≠ 2 := by
    rintro rfl
    exact hh (.inl ⟨itB2, by rw [it_blocks]; simp, 2, q,
      ⟨it_clocked (.inr rfl), ⟨2, ⟨0, 7⟩, tkAt 2, false⟩, by decide, rfl, rfl, eight.2 (by omega)⟩, .inl ⟨rfl, rfl⟩⟩)
  omega

theorem it_in {s q : Nat} {p : PortDecl} (h : LastSupply itEvents s q p) (hs : s ≠ 3) : s = 0 ∧ p = hdIn 20 0 := by
  obtain ⟨pre, post, h1, h2, _⟩ := h
  have hm : Event.port p ∈ itEvents := h1 ▸ by simp
  simp [itEvents] at hm
  obtain ⟨a1, d, a2, a3, _⟩ := h2
  rcases hm with rfl | rfl | rfl | rfl <;> simp [hdIn, hdOut] at a1 a2 <;> subst a2
  · exact ⟨a1.symm, rfl⟩
  · omega
  · cases a3
  · cases a3

theorem it_inputs : ∀ t s q, OuterSource ivE itEvents itCol.cuts ivVia s q → ¬ HeldVia ivE itEvents itCol.cuts ivVia s q →
    itVals false t s q ≠ itVals true t s q → Bare itEvents s ∧ ivE.D.kind s ≠ .modportPort ∧ ∃ p, LastSupply itEvents s q p := by
  intro t s q h hh hne
  obtain ⟨rfl, hq⟩ := it_sources h hh hne
  refine ⟨it_bare (by decide) (by decide), by decide, hdIn 20 0, [], _, rfl,
    ⟨rfl, ⟨0, 7, true⟩, by simp [hdIn], rfl, by simp, hq⟩, ?_⟩
  intro p hp hs
  simp at hp
  rcases hp with rfl | rfl | rfl <;> simp [Supplies, hdIn, hdOut] at hs

theorem it_cuts : itCol.cuts 4 = none := by decide +kernel

theorem it_spans : Spans ivE itCol.cuts (hdOut 23 4) 4 0 7 := by
  refine ⟨rfl, by decide, ⟨⟨0, 7, false⟩, by simp [hdOut], by decide, by decide⟩, fun _ l hl => ?_⟩
  rw [it_cuts] at hl
  cases hl

/-- There is no path from port `a` to port `w`, so `w` is always the same. -/
example (t : Nat) : itVals false t 4 0 = itVals true t 4 0 :=
  no_path_same_clocked_via_partial (M := itM) it_build it_phase1 it_net it_marked it_loops
    (by rw [it_events]; exact it_regular _) (by rw [it_events]; exact it_timed _) (by rw [it_events]; exact it_off _)
    (by rw [it_events]; exact it_clocks) (by rw [it_events]; exact it_faithful)
    (by rw [it_events]; exact it_reflects) (T := itFire) (by rw [it_events]; exact it_triggers)
    (σ := itVals false) (σ' := itVals true) (by rw [it_events]; exact it_unrolls false)
    (by rw [it_events]; exact it_unrolls true)
    (by rw [it_events]; exact it_shared false) (by rw [it_events]; exact it_shared true)
    (by rw [it_events]; exact it_alike) (by rw [it_events]; exact it_init) (by rw [it_events]; exact it_inputs)
    (b := tkB3) (x := 4) (j := 0) (by rw [it_events, it_blocks]; simp)
    (.inr ⟨it_clear (by simp), ⟨4, ⟨0, 7⟩, tkAt 5, true⟩, by decide, rfl, rfl, eight.2 (by decide)⟩) (p := hdOut 23 4)
    (by rw [it_events]; simp [itEvents]) rfl (lo := 0) (hi := 7)
    it_spans
    (by intro w hw _ _; simp [tkB3, Deferred.stmt, allWrites, asgWrites, dsRef] at hw; subst hw; decide)
    (by
      rw [it_events]
      intro t s q n m p' h1 h2 h3 h4
      have hs : s ≠ 3 := by rintro rfl; exact h2 rfl
      obtain ⟨rfl, rfl⟩ := it_in h1 hs
      obtain ⟨n1, x, b, hx, _, n2⟩ := h3
      obtain ⟨m1, y, b', hy, _, m2⟩ := h4
      cases hx; cases hy
      exact ⟨by decide, (by decide +kernel : ∀ n ∈ itNet.g.nodes, ∀ m ∈ itNet.g.nodes,
        portName (itNet.data n) = some ['a'] → portName (itNet.data m) = some ['e'] → findPath itNet n m = some [])
          n n1 m m1 (by rw [n2]; rfl) (by rw [m2]; rfl)⟩) t

end Verif.Props

import Verif.Props.Enter

/-! C99: values that pass through interfaces. -/
namespace Verif.Props
open Verif.Model Verif.Spec Verif.Proofs

/-- C99. In the netlist of a design, each driven range of an interface variable that no edge-triggered block
writes has a node; it is entered from every assignment that can leave a value in a signal that goes to the range,
directly or through a modport port; and the node of every read that takes its value from the range, directly or
through a modport port, is entered from it.

Partial: the designs are those of C62; the modport port written has `v` behind all its uses; a read or direct
write must have the very range of a node (see `part_of_interface_lost`); a variable written at a clock edge is
left out (see `interface_register_bypassed`). -/
theorem interface_flow_partial {E : TravEnv} {boxed : Str → Str → Bool} {ord : Tracker → List (Nat × Nat)}
    {top : List Member} (h : Buildable E boxed ord top) :
    ∃ net, netlist E ord top = .ok net ∧ ∀ x ds, .variable x ds ∈ eventsAll boxed E.opts.propCuts top →
      Unclocked (eventsAll boxed E.opts.propCuts top) x → ∀ d ∈ ds, ∃ m ∈ net.g.nodes,
        net.data m = .variable (E.D.ref x).name (E.D.ref x).path (E.D.ref x).loc ⟨d.1, (d.1 : Int) + d.2⟩ ∧
        (∀ b ∈ blocksOf (eventsAll boxed E.opts.propCuts top), ∀ y p loc, Leaves b.stmt y p loc →
          PutsOn E.D b y (x, ⟨d.1, (d.1 : Int) + d.2⟩) → FedBy net loc m) ∧
        ∀ b ∈ blocksOf (eventsAll boxed E.opts.propCuts top), ∀ who r Q, Use Start b.stmt who r Q → (∃ tr, Q tr) →
          ReadFits (allWrites b.stmt) r.sym r.bounds → TakesFrom E.D r Q (x, ⟨d.1, (d.1 : Int) + d.2⟩) →
          ∃ n ∈ net.g.nodes, net.data n = who ∧ Joined net m n := by
  obtain ⟨c, _, s', net, _, _, _, _, _, _, hnet, hw⟩ := built h
  refine ⟨net, hnet, fun x ds hx hun d hd => ?_⟩
  obtain ⟨m, m1, m2, m3⟩ := variable_at hw.walk hx hd
  exact ⟨m, hw.early.nodes m m2, by rw [hw.early.data m m2, m3], iface_at hw hun m1⟩

/-- C99: hence a value written on one side of an interface and read on the other is on a path of the netlist,
from the assignment that writes to the node that reads. -/
theorem interface_path_partial {E : TravEnv} {boxed : Str → Str → Bool} {ord : Tracker → List (Nat × Nat)}
    {top : List Member} (h : Buildable E boxed ord top) :
    ∃ net, netlist E ord top = .ok net ∧ ∀ x ds, .variable x ds ∈ eventsAll boxed E.opts.propCuts top →
      Unclocked (eventsAll boxed E.opts.propCuts top) x → ∀ d ∈ ds,
        ∀ b ∈ blocksOf (eventsAll boxed E.opts.propCuts top), ∀ y p loc, Leaves b.stmt y p loc →
          PutsOn E.D b y (x, ⟨d.1, (d.1 : Int) + d.2⟩) →
        ∀ b' ∈ blocksOf (eventsAll boxed E.opts.propCuts top), ∀ who r Q, Use Start b'.stmt who r Q → (∃ tr, Q tr) →
          ReadFits (allWrites b'.stmt) r.sym r.bounds → TakesFrom E.D r Q (x, ⟨d.1, (d.1 : Int) + d.2⟩) →
          ∃ a n, a ∈ net.g.nodes ∧ n ∈ net.g.nodes ∧ net.data a = .assignment loc ∧ net.data n = who ∧
            Reach (Joined net) a n := by
  obtain ⟨net, h1, h2⟩ := interface_flow_partial h
  refine ⟨net, h1, fun x ds hx hun d hd b hb y p loc hl hp b' hb' who r Q hu hq hf ht => ?_⟩
  obtain ⟨m, _, _, g1, g2⟩ := h2 x ds hx hun d hd
  obtain ⟨a, a1, a2, a3⟩ := g1 b hb y p loc hl hp
  obtain ⟨n, n1, n2, n3⟩ := g2 b' hb' who r Q hu hq hf ht
  exact ⟨a, n, a1, n1, a2, n2, (Reach.refl.tail a3).tail n3⟩

/-! ### A concrete design
```
interface I; logic [7:0] a; modport p(output a); modport c(input a); endinterface
module prod(I.p i, input [7:0] x); assign i.a = x; endmodule        // line 1
module cons(I.c i); wire [7:0] y; assign y = i.a;                    // line 2
  wire [3:0] n; assign n = i.a[3:0]; endmodule                       // line 4
module t(input [7:0] x); I i(); wire [7:0] z; assign z = i.a; ...    // line 3
```
The variable `a` is signal 32, the modport ports are the signals 30 and 31; expression 1 is the part select of
line 4. -/

def ipD : Design where
  ref := hdD.ref
  kind n := if n = 30 ∨ n = 31 then .modportPort else if n = 32 then .variable else .other
  width := hdD.width
  port n := if n = 0 then some 20 else none
  iface n e := if n = 30 then [(32, ⟨0, 7⟩)] else if n = 31 then (if e = 1 then [(32, ⟨0, 3⟩)] else [(32, ⟨0, 7⟩)]) else []

def ipE : TravEnv := { hdE with D := ipD }

def ipB1 : Deferred := .continuous (ln 1) (.aligned [⟨[dsRef 30], [.lsp (dsRef 0)], ln 1⟩])
def ipB2 : Deferred := .continuous (ln 2) (.aligned [⟨[dsRef 1], [.lsp (dsRef 31)], ln 2⟩])
def ipB3 : Deferred := .continuous (ln 3) (.aligned [⟨[dsRef 2], [.lsp (dsRef 32)], ln 3⟩])
def ipB4 : Deferred := .continuous (ln 4) (.aligned [⟨[⟨7, ⟨0, 3⟩, 0, false⟩], [.lsp ⟨31, ⟨0, 3⟩, 1, false⟩], ln 4⟩])

def ipTop : List Member := [.inst false ['t'] ['t'] [.port (hdIn 20 0),
  .inst false ['I'] ['t', '.', 'i'] [.variable 32 true [(0, 7)]] [],
  .block ipB1, .block ipB2, .block ipB3, .block ipB4] []]

def ipEvents : List Event := [.port (hdIn 20 0), .variable 32 [(0, 7)], .block ipB1, .block ipB2, .block ipB3, .block ipB4]

def ipCol : Col := (phase1 ipE ipTop).toOption.getD {}
def ipNet : NetGraph := (netlist ipE Tracker.slots ipTop).toOption.getD {}

theorem ip_events : eventsAll hdBoxed ipE.opts.propCuts ipTop = ipEvents := by
  show eventsAll hdBoxed true ipTop = ipEvents
  simp [ipTop, eventsAll, events, hdBoxed, ipEvents]

theorem ip_blocks : blocksOf ipEvents = [ipB1, ipB2, ipB3, ipB4] := rfl

theorem ip_elab : Elaborated ipE hdBoxed ipTop where
  boxes := by simp [DecidesBoxes, Boxed, hdBoxed, ipE, hdE]
  ok := by
    rw [ip_events]
    simp [ipEvents, EventOk, hdIn, PortDriver.hi, ipE, ipD, hdE, hdD]
  once := by
    rw [ip_events]
    show [20, 32].Nodup
    decide

theorem ip_phase1 : phase1 ipE ipTop = .ok ipCol := by
  obtain ⟨c, h, _⟩ := phase1_total_partial ip_elab
  rw [ipCol, h]; rfl

theorem ip_build : Buildable ipE hdBoxed Tracker.slots ipTop where
  design := ip_elab
  plain := by
    intro c hc
    rw [ip_phase1] at hc
    exact Except.ok.inj hc ▸
      plain_of_two (lo := 0) (mid := 3) (hi := 7) (by decide) (by decide) (by decide +kernel) (by decide) (by decide)
  live := by
    rw [ip_events, ip_blocks]
    intro b hb; simp at hb; rcases hb with rfl | rfl | rfl | rfl <;> decide
  events := by
    rw [ip_events, ip_blocks]
    intro b hb; simp at hb
    rcases hb with rfl | rfl | rfl | rfl <;> trivial
  visits := fun _ => List.Perm.refl _
  ports := by
    rw [ip_events, ip_blocks]
    have : ∀ b ∈ [ipB1, ipB2, ipB3, ipB4], ∀ w ∈ allWrites b.stmt, w.sym ≠ 20 := by
      intro b hb; simp at hb; rcases hb with rfl | rfl | rfl | rfl <;> decide
    intro p hp b hb w hw
    have := this b hb w hw
    simp [ipEvents, hdIn] at hp
    subst hp
    exact this

theorem ip_net : netlist ipE Tracker.slots ipTop = .ok ipNet := by
  obtain ⟨_, _, net, _, _, _, _, h, _⟩ := netlist_total_partial ip_build
  rw [ipNet, h]; rfl

theorem ip_unclocked : Unclocked ipEvents 32 := by
  rw [Unclocked, ip_blocks]
  rintro b hb ⟨⟨v, hv, _⟩, _⟩
  simp at hb
  rcases hb with rfl | rfl | rfl | rfl <;> cases hv

/-- The hypotheses of `interface_path_partial` hold for line 1 and the reads in lines 2 and 3. -/
example : (∃ Q, Use Start ipB2.stmt (.assignment (ln 2)) (dsRef 31) Q ∧ TakesFrom ipE.D (dsRef 31) Q (32, ⟨0, 7⟩)) ∧
    (∃ Q, Use Start ipB3.stmt (.assignment (ln 3)) (dsRef 32) Q ∧ TakesFrom ipE.D (dsRef 32) Q (32, ⟨0, 7⟩)) ∧
    PutsOn ipE.D ipB1 30 (32, ⟨0, 7⟩) ∧ Leaves ipB1.stmt 30 0 (ln 1) ∧ Unclocked ipEvents 32 := by
  refine ⟨⟨Start, .seg (List.mem_singleton.2 rfl) (List.mem_singleton.2 rfl) (.lsp _) ?_, .inl ⟨by decide, by decide, 0,
      .inl ⟨by decide, by decide⟩, ?_⟩⟩,
    ⟨Start, .seg (List.mem_singleton.2 rfl) (List.mem_singleton.2 rfl) (.lsp _) ?_, .inr ⟨by decide, rfl, rfl, ?_⟩⟩,
    .inl ⟨by decide, fun e => List.mem_singleton.2 rfl⟩, ?_, ip_unclocked⟩
  · intro p _ w hw hh
    have : w = ⟨1, ⟨0, 7⟩, ln 2, true⟩ := by simpa [asgWrites, dsRef] using hw
    subst this; exact absurd hh.2.1 (by decide)
  · rintro tr rfl w hw; cases hw
  · intro p _ w hw hh
    have : w = ⟨2, ⟨0, 7⟩, ln 3, true⟩ := by simpa [asgWrites, dsRef] using hw
    subst this; exact absurd hh.2.1 (by decide)
  · rintro p _ tr rfl w hw; cases hw
  · refine .inr ⟨by simp [ipB1, Deferred.stmt, nbaWrites], _, .assign .., ?_⟩
    exact ⟨[], ⟨30, ⟨0, 7⟩, ln 1, true⟩, [], rfl, ⟨rfl, rfl, .inl ⟨by decide, by decide⟩⟩, rfl, by simp⟩

/-- In the netlist of the design, the read of the whole of `i.a` in line 2 depends on the variable, while nothing at
all enters the assignment of line 4, which reads the lower half of `i.a`. -/
theorem part_of_interface_lost : netlist ipE Tracker.slots ipTop = .ok ipNet ∧
    (∃ m ∈ ipNet.g.nodes, ∃ n ∈ ipNet.g.nodes, ipNet.data m = .variable (ipD.ref 32).name (ipD.ref 32).path
      (ipD.ref 32).loc ⟨0, 7⟩ ∧ ipNet.data n = .assignment (ln 2) ∧ Joined ipNet m n) ∧
    ∃ n ∈ ipNet.g.nodes, ipNet.data n = .assignment (ln 4) ∧ ∀ m ∈ ipNet.g.nodes, ¬ Joined ipNet m n := by
  refine ⟨ip_net, ⟨1, by decide +kernel, 3, by decide +kernel, by decide +kernel, by decide +kernel, ?_⟩,
    5, by decide +kernel, by decide +kernel, ?_⟩
  · exact (by decide +kernel : ∃ e ∈ (ipNet.g.obj 1).outE, e.tgt = 3)
  · exact (by decide +kernel : ∀ m ∈ ipNet.g.nodes, ¬ ∃ e ∈ (ipNet.g.obj m).outE, e.tgt = 5)

end Verif.Props

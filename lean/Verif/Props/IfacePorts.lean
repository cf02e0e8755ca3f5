import Verif.Proofs.IfacePorts
import Verif.Props.IfaceFlow
import Verif.Props.Sound

/-! C101: ports of instances that are connected to interface signals. -/
namespace Verif.Props
open Verif.Model Verif.Spec Verif.Proofs

/-- C101. In the netlist of a design, each driven range of an interface variable has a node, and every input port
that takes its value from the range, directly or through a modport port, has a node for each bit that is entered
from it; if no edge-triggered block writes the variable, its node is itself entered from every assignment that can
leave a value in a signal that goes to the range.

Partial: the designs are those of C62; a variable behind a modport port must be met before the connection (see
`late_interface_lost`) and be behind all uses of the modport port. Nothing corresponds to this for output ports
(see `variables_entered_by_assignments` and `output_on_interface_lost`). -/
theorem interface_inputs_partial {E : TravEnv} {boxed : Str → Str → Bool} {ord : Tracker → List (Nat × Nat)}
    {top : List Member} (h : Buildable E boxed ord top) :
    ∃ c net, phase1 E top = .ok c ∧ netlist E ord top = .ok net ∧
      ∀ x ds, .variable x ds ∈ eventsAll boxed E.opts.propCuts top → ∀ d ∈ ds, ∃ m ∈ net.g.nodes,
        net.data m = .variable (E.D.ref x).name (E.D.ref x).path (E.D.ref x).loc ⟨d.1, (d.1 : Int) + d.2⟩ ∧
        (∀ p k i j, HasBit p i j →
          FromIface E (eventsAll boxed E.opts.propCuts top) c.cuts p k j x ds ⟨d.1, (d.1 : Int) + d.2⟩ →
          ∃ n, PortNode E.D net p j n ∧ Joined net m n) ∧
        (Unclocked (eventsAll boxed E.opts.propCuts top) x →
          ∀ b ∈ blocksOf (eventsAll boxed E.opts.propCuts top), ∀ y p loc, Leaves b.stmt y p loc →
            PutsOn E.D b y (x, ⟨d.1, (d.1 : Int) + d.2⟩) → FedBy net loc m) := by
  obtain ⟨c, _, s', net, h1, _, _, _, _, _, hnet, hw⟩ := built h
  refine ⟨c, net, h1, hnet, fun x ds hx d hd => ?_⟩
  obtain ⟨m, m1, m2, m3⟩ := variable_at hw.walk hx hd
  exact ⟨m, hw.early.nodes m m2, by rw [hw.early.data m m2, m3],
    fun p k i j hbit hfrom => iface_input hw m1 hbit hfrom, fun hun => (iface_at hw hun m1).1⟩

/-! ### Nothing but assignments enters a variable -/

theorem branch_not_variable (k : Bool) (loc : TextLoc) : (branchData k loc).kind ≠ .variable := by
  cases k <;> simp [branchData, NodeData.kind]

theorem marks_not_variable (st : Stmt) : ∀ {M : NodeData → Prop},
    (∀ d, M d → d.kind ≠ .variable) → ∀ d, marks M st d → d.kind ≠ .variable := by
  induction st with
  | skip | reads => exact fun h => h
  | assign loc b a =>
    rintro M h d (⟨l, _, rfl⟩ | ⟨_, hd⟩)
    · simp [NodeData.kind]
    · exact h d hd
  | branch k loc => rintro M h d rfl; exact branch_not_variable k loc
  | dead => rintro M h d hd; exact hd.elim
  | seq s t ih1 ih2 => exact fun h => ih2 (ih1 h)
  | choose f s t ih1 ih2 =>
    rintro M h d (hd | hd | rfl)
    · exact ih1 h d hd
    · exact ih2 h d hd
    · simp [NodeData.kind]

theorem touches_not_variable {M : NodeData → Prop} {P Q : Wr → Prop} {st : Stmt} {d : NodeData} {r : Ref}
    (h : Touches M P st d r Q) : (∀ d, M d → d.kind ≠ .variable) → d.kind ≠ .variable := by
  induction h with
  | reads _ _ hd => exact fun h => h _ hd
  | note | seg => exact fun _ => by simp [NodeData.kind]
  | left _ ih | first _ ih | second _ ih => exact ih
  | right _ ih => exact fun h => ih (marks_not_variable _ h)

theorem controls_not_variable {M C : NodeData → Prop} {st : Stmt} {u v : NodeData} (h : Controls M C st u v) :
    v.kind ≠ .variable := by
  induction h with
  | assign | nodes | conds => simp [NodeData.kind]
  | branch => exact branch_not_variable _ _
  | left _ ih | right _ ih | first _ ih | second _ ih => exact ih

/-- C101, the other side: in the netlist of an elaborated design, every edge into the node of an interface variable
comes from an assignment. So what an output port of an instance puts on an interface signal never reaches the
variable. -/
theorem variables_entered_by_assignments {E : TravEnv} {boxed : Str → Str → Bool}
    {ord : Tracker → List (Nat × Nat)} {top : List Member} (h : Elaborated E boxed top) (hv : Visits ord)
    (hp : PortsApart E.D (eventsAll boxed E.opts.propCuts top)) {net : NetGraph} (hn : netlist E ord top = .ok net)
    {s t : Nat} (hj : Joined net s t) (ht : (net.data t).kind = .variable) : ∃ loc, net.data s = .assignment loc := by
  obtain ⟨hr, hs⟩ := edges_justified h hv hn
  have hsn := (joined_nodes hr hj).1
  obtain ⟨e, he, rfl⟩ := hj
  have := (hs s hsn e he).2.2
  have stands : ∀ y d, Stands E (eventsAll boxed E.opts.propCuts top) bySignal y d → d.kind = .variable →
      ∃ ds, .variable y ds ∈ eventsAll boxed E.opts.propCuts top := by
    rintro y d (⟨h1, h2, h3⟩ | ⟨_, h2⟩) hk
    · rename_i ev
      cases ev with
      | port p => obtain ⟨x, b, _, _, _, rfl⟩ := h3; cases hk
      | «variable» x ds => simp only [declares, List.mem_singleton] at h2; subst h2; exact ⟨ds, h1⟩
      | connect k => obtain ⟨_, v, w, rfl⟩ := h3; cases hk
      | _ => exact h3.elim
    · cases h2; cases hk
  have reads : ∀ st d r Q, ReadsIn st d r Q → d.kind ≠ .variable := fun st d r Q h => touches_not_variable h (fun _ h => h.elim)
  generalize hu : net.data s = u at this
  generalize hw : net.data e.tgt = v at this ht
  cases hsym : (net.attr e.id).symbol with
  | none =>
    simp only [hsym] at this
    cases this with
    | literal => cases ht
    | tied h1 _ h3 h4 =>
      obtain ⟨ds, h5⟩ := stands _ _ h4 ht
      exact absurd h5 (hp.1 _ _ _ h1 h3 ds)
    | control _ h2 => exact absurd ht (controls_not_variable h2)
  | some r =>
    simp only [hsym] at this
    have hi : InRng (net.attr e.id).bounds (net.attr e.id).bounds.left := by
      rcases Int.le_total (net.attr e.id).bounds.left (net.attr e.id).bounds.right with h | h
      · exact .inl ⟨Int.le_refl _, h⟩
      · exact .inr ⟨h, Int.le_refl _⟩
    have := this _ hi
    cases this with
    | inside _ h2 => exact absurd ht (reads _ _ _ _ h2)
    | between _ _ h3 =>
      cases h3 with
      | read _ h2 => exact absurd ht (reads _ _ _ _ h2)
      | input h1 _ h3 h4 =>
        obtain ⟨ds, h5⟩ := stands _ _ h4.1 ht
        exact absurd h5 (hp.1 _ _ _ h1 h3 ds)
      | clock _ h2 => cases h2; cases ht
    | outward _ _ h3 h4 =>
      obtain ⟨ds, h5⟩ := stands _ _ h4.1 ht
      exact absurd h5 (hp.2 _ _ h3 ds)
    | store | «variable» | modport => exact ⟨_, rfl⟩

/-! ### A concrete design
```
interface I; logic [7:0] a, b; modport p(output a, b); modport c(input a, b); endinterface
module src(input [7:0] v, output [7:0] o); assign o = v; endmodule    // line 2
module snk(input [7:0] w); wire [7:0] z; assign z = w; endmodule      // line 3
module prod(I.p i, input [7:0] x); assign i.a = x;                     // line 1
  src s(.v(x), .o(i.b)); endmodule
module cons(I.c i); snk k(.w(i.a)); wire [7:0] y; assign y = i.b;      // line 4
endmodule
module t(input [7:0] x); I i(); ...
```
The variables `a` and `b` are the signals 32 and 33, the modport ports for `a` are 30 and 31, those for `b` 34 and
35; the ports `v`, `o`, `w` are the symbols 24, 23, 22. -/

def icD : Design where
  ref := hdD.ref
  kind n := if n = 30 ∨ n = 31 ∨ n = 34 ∨ n = 35 then .modportPort else if n = 32 ∨ n = 33 then .variable else .other
  width := hdD.width
  port := hdD.port
  iface n _ := if n = 30 ∨ n = 31 then [(32, ⟨0, 7⟩)] else if n = 34 ∨ n = 35 then [(33, ⟨0, 7⟩)] else []

def icE : TravEnv := { hdE with D := icD }

def icB1 : Deferred := .continuous (ln 1) (.aligned [⟨[dsRef 30], [.lsp (dsRef 0)], ln 1⟩])
def icB2 : Deferred := .continuous (ln 2) (.aligned [⟨[dsRef 4], [.lsp (dsRef 5)], ln 2⟩])
def icB3 : Deferred := .continuous (ln 3) (.aligned [⟨[dsRef 2], [.lsp (dsRef 3)], ln 3⟩])
def icB4 : Deferred := .continuous (ln 4) (.aligned [⟨[dsRef 1], [.lsp (dsRef 35)], ln 4⟩])

def icV : Conn := ⟨.port 24 (some 5), some (hdWhole 0), false, true⟩
def icO : Conn := ⟨.port 23 (some 4), some (hdWhole 34), true, true⟩
def icW : Conn := ⟨.port 22 (some 3), some (hdWhole 31), false, true⟩

def icI : Member := .inst false ['I'] ['t', '.', 'i'] [.variable 32 true [(0, 7)], .variable 33 true [(0, 7)]] []
def icProd : List Member := [.block icB1, .inst false ['s'] ['t', '.', 's'] [.port (hdIn 24 5), .port (hdOut 23 4), .block icB2] [icV, icO]]
def icCons : List Member := [.inst false ['k'] ['t', '.', 'k'] [.port (hdIn 22 3), .block icB3] [icW], .block icB4]

def icTop : List Member := [.inst false ['t'] ['t'] ([.port (hdIn 20 0), icI] ++ icProd ++ icCons) []]

def icEvents : List Event := [.port (hdIn 20 0), .variable 32 [(0, 7)], .variable 33 [(0, 7)], .block icB1, .cuts icV,
  .cuts icO, .port (hdIn 24 5), .port (hdOut 23 4), .block icB2, .connect icV, .connect icO, .cuts icW,
  .port (hdIn 22 3), .block icB3, .connect icW, .block icB4]

def icCol : Col := (phase1 icE icTop).toOption.getD {}
def icNet : NetGraph := (netlist icE Tracker.slots icTop).toOption.getD {}

theorem ic_events : eventsAll hdBoxed icE.opts.propCuts icTop = icEvents := by
  show eventsAll hdBoxed true icTop = icEvents
  simp [icTop, icI, icProd, icCons, eventsAll, events, hdBoxed, icEvents]

theorem ic_blocks : blocksOf icEvents = [icB1, icB2, icB3, icB4] := rfl

theorem ic_elab : Elaborated icE hdBoxed icTop where
  boxes := by simp [DecidesBoxes, Boxed, hdBoxed, icE, hdE]
  ok := by
    rw [ic_events]
    simp [icEvents, EventOk, hdIn, hdOut, PortDriver.hi, icE, icD, hdE, hdD, icV, icO, icW, hdWhole, WT]
  once := by
    rw [ic_events]
    show [20, 32, 33, 24, 23, 22].Nodup
    decide

theorem ic_phase1 : phase1 icE icTop = .ok icCol := by
  obtain ⟨c, h, _⟩ := phase1_total_partial ic_elab
  rw [icCol, h]; rfl

theorem ic_build : Buildable icE hdBoxed Tracker.slots icTop where
  design := ic_elab
  plain := by
    intro c hc
    rw [ic_phase1] at hc
    exact Except.ok.inj hc ▸
      plain_of_two (lo := 0) (mid := 3) (hi := 7) (by decide) (by decide) (by decide +kernel) (by decide) (by decide)
  live := by
    rw [ic_events, ic_blocks]
    intro b hb; simp at hb; rcases hb with rfl | rfl | rfl | rfl <;> decide
  events := by
    rw [ic_events, ic_blocks]
    intro b hb; simp at hb
    rcases hb with rfl | rfl | rfl | rfl <;> trivial
  visits := fun _ => List.Perm.refl _
  ports := by
    rw [ic_events, ic_blocks]
    have : ∀ b ∈ [icB1, icB2, icB3, icB4], ∀ w ∈ allWrites b.stmt, w.sym < 20 ∨ 25 < w.sym := by
      intro b hb; simp at hb; rcases hb with rfl | rfl | rfl | rfl <;> decide
    intro p hp b hb w hw
    have := this b hb w hw
    simp [icEvents, hdIn, hdOut] at hp
    rcases hp with rfl | rfl | rfl | rfl <;> simp only <;> omega

theorem ic_net : netlist icE Tracker.slots icTop = .ok icNet := by
  obtain ⟨_, _, net, _, _, _, _, h, _⟩ := netlist_total_partial ic_build
  rw [icNet, h]; rfl

theorem ic_apart : PortsApart icE.D icEvents := by
  constructor
  · intro k s f hk hf ds
    simp [icEvents] at hk
    rcases hk with rfl | rfl | rfl <;> cases hf <;> simp [icEvents]
  · intro y q hq ds hm
    have : q < 26 := by
      simp only [icE, icD, hdD] at hq
      split at hq <;> simp at hq <;> omega
    simp [icEvents] at hm
    omega

theorem ic_unclocked : Unclocked icEvents 32 := by
  rw [Unclocked, ic_blocks]
  rintro b hb ⟨⟨v, hv, _⟩, _⟩
  simp at hb
  rcases hb with rfl | rfl | rfl | rfl <;> cases hv

/-- The hypotheses of `interface_inputs_partial` hold for the variable `a`, the assignment of line 1 and every bit
of the port `w`. -/
example : Buildable icE hdBoxed Tracker.slots icTop ∧
    .variable 32 [(0, 7)] ∈ eventsAll hdBoxed icE.opts.propCuts icTop ∧ Unclocked icEvents 32 ∧
    (∀ j < 8, HasBit (hdIn 22 3) 3 j ∧ FromIface icE icEvents icCol.cuts (hdIn 22 3) icW j 32 [(0, 7)] ⟨0, 7⟩) ∧
    PutsOn icE.D icB1 30 (32, ⟨0, 7⟩) ∧ Leaves icB1.stmt 30 0 (ln 1) := by
  refine ⟨ic_build, by rw [ic_events]; simp [icEvents], ic_unclocked, fun j hj => ⟨⟨rfl, _, List.mem_singleton.2 rfl,
    Nat.zero_le _, by simp [PortDriver.hi]; omega⟩, rfl, ?_, ⟨_, rfl⟩, .inl ⟨?_, 31, j, ?_, ⟨⟨_, rfl⟩, _, rfl, .inl ⟨?_, ?_⟩⟩,
    by decide, fun _ => List.mem_singleton.2 rfl⟩⟩, .inl ⟨by decide, fun _ => List.mem_singleton.2 rfl⟩, ?_⟩
  · exact ⟨[.port (hdIn 20 0), .variable 32 [(0, 7)], .variable 33 [(0, 7)], .block icB1, .cuts icV,
      .cuts icO, .port (hdIn 24 5), .port (hdOut 23 4), .block icB2, .connect icV, .connect icO, .cuts icW],
      [.block icB3], [.block icB4], rfl⟩
  · exact ⟨[.port (hdIn 20 0)], [.variable 33 [(0, 7)], .block icB1, .cuts icV,
      .cuts icO, .port (hdIn 24 5), .port (hdOut 23 4), .block icB2, .connect icV, .connect icO, .cuts icW,
      .port (hdIn 22 3), .block icB3], [.block icB4], rfl⟩
  · rintro s i e h1 h2 _; cases h1; cases h2
    exact ⟨by simp [Static, hdWhole, pathsList], by simp [icW]⟩
  · exact ⟨rfl, rfl, rfl⟩
  · exact .inl ⟨rfl, rfl, (Nat.zero_add j).symm⟩
  · refine .inr ⟨by simp [icB1, Deferred.stmt, nbaWrites], _, .assign .., ?_⟩
    exact ⟨[], ⟨30, ⟨0, 7⟩, ln 1, true⟩, [], rfl, ⟨rfl, rfl, .inl ⟨by decide, by decide⟩⟩, rfl, by simp⟩

/-- The hypotheses of `variables_entered_by_assignments` hold for the edge into `a`. -/
example : Elaborated icE hdBoxed icTop ∧ Visits Tracker.slots ∧
    PortsApart icE.D (eventsAll hdBoxed icE.opts.propCuts icTop) ∧ Joined icNet 6 1 ∧ (icNet.data 1).kind = .variable :=
  ⟨ic_elab, ic_build.visits, by rw [ic_events]; exact ic_apart,
    (by decide +kernel : ∃ e ∈ (icNet.g.obj 6).outE, e.tgt = 1), by decide +kernel⟩

/-- In the netlist of the design, line 4 reads the variable `b`, but nothing at all enters the node of `b`, although
the output port `o` is connected to it; and nothing depends on `o`. -/
theorem output_on_interface_lost : netlist icE Tracker.slots icTop = .ok icNet ∧
    (∃ m ∈ icNet.g.nodes, ∃ n ∈ icNet.g.nodes, icNet.data m = .variable (icD.ref 33).name (icD.ref 33).path
      (icD.ref 33).loc ⟨0, 7⟩ ∧ icNet.data n = .assignment (ln 4) ∧ Joined icNet m n ∧
      ∀ a ∈ icNet.g.nodes, ¬ Joined icNet a m) ∧
    ∃ o, PortNode icD icNet (hdOut 23 4) 0 o ∧ ∀ a ∈ icNet.g.nodes, ¬ Joined icNet o a := by
  refine ⟨ic_net, ⟨2, by decide +kernel, 9, by decide +kernel, by decide +kernel, by decide +kernel, ?_, ?_⟩,
    4, ⟨by decide +kernel, 4, ⟨0, 7⟩, rfl, .inl ⟨by decide, by decide⟩, by decide +kernel⟩, ?_⟩
  · exact (by decide +kernel : ∃ e ∈ (icNet.g.obj 2).outE, e.tgt = 9)
  · exact (by decide +kernel : ∀ m ∈ icNet.g.nodes, ¬ ∃ e ∈ (icNet.g.obj m).outE, e.tgt = 2)
  · exact (by decide +kernel : ∀ m ∈ icNet.g.nodes, ¬ ∃ e ∈ (icNet.g.obj 4).outE, e.tgt = m)

/-! The same design with the instance of the interface as the last member. -/

def icLate : List Member := [.inst false ['t'] ['t'] ([.port (hdIn 20 0)] ++ icProd ++ icCons ++ [icI]) []]

def icLateNet : NetGraph := (netlist icE Tracker.slots icLate).toOption.getD {}

theorem ok_of_isSome {x : Except Fault NetGraph} (h : x.toOption.isSome = true) : x = .ok (x.toOption.getD {}) := by
  cases x with
  | error _ => cases h
  | ok _ => rfl

theorem ic_late_net : netlist icE Tracker.slots icLate = .ok icLateNet := ok_of_isSome (by decide +kernel)

/-- If the interface comes after the instances, line 4 still reads `b`, but nothing at all enters the input port
`w`, which is connected to `a`. -/
theorem late_interface_lost : netlist icE Tracker.slots icLate = .ok icLateNet ∧
    (∃ m ∈ icLateNet.g.nodes, ∃ n ∈ icLateNet.g.nodes, icLateNet.data m = .variable (icD.ref 33).name (icD.ref 33).path
      (icD.ref 33).loc ⟨0, 7⟩ ∧ icLateNet.data n = .assignment (ln 4) ∧ Joined icLateNet m n) ∧
    ∃ w, PortNode icD icLateNet (hdIn 22 3) 0 w ∧ ∀ a ∈ icLateNet.g.nodes, ¬ Joined icLateNet a w := by
  refine ⟨ic_late_net, ⟨5, by decide +kernel, 9, by decide +kernel, by decide +kernel, by decide +kernel, ?_⟩,
    3, ⟨by decide +kernel, 3, ⟨0, 7⟩, rfl, .inl ⟨by decide, by decide⟩, by decide +kernel⟩, ?_⟩
  · exact (by decide +kernel : ∃ e ∈ (icLateNet.g.obj 5).outE, e.tgt = 9)
  · exact (by decide +kernel : ∀ m ∈ icLateNet.g.nodes, ¬ ∃ e ∈ (icLateNet.g.obj m).outE, e.tgt = 3)

end Verif.Props

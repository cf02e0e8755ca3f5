import Verif.Props.Clock

/-! C81, a concrete design with a register that is connected to an input port:
```
module sub(input [7:0] mi);
  wire [7:0] w;
  assign w = mi;                             // line 4
endmodule
module t(input [7:0] a);
  reg [3:0] v0; wire [3:0] v1;
  always_ff @(posedge clk) v0 <= a[3:0];     // line 3
  sub s(.mi({v1, v0}));
endmodule
```
The insides of the ports are the signals 0 and 3, `w` is signal 2, `v1` and `v0` are the signals 7 and 8, and
`clk` is signal 9. -/
namespace Verif.Props
open Verif.Model Verif.Spec Verif.Proofs

def enB1 : Deferred := .procedural .alwaysFF (.timed (.signalEvent ⟨.posEdge, some 9⟩))
  (.assign (ln 3) false (.aligned [⟨[⟨8, ⟨0, 3⟩, 0, false⟩], [.lsp ⟨0, ⟨0, 3⟩, 0, false⟩], ln 3⟩]))
def enB2 : Deferred := .continuous (ln 4) (.aligned [⟨[dsRef 2], [.lsp (dsRef 3)], ln 4⟩])

def enTop : List Member := [.inst false ['t'] ['t'] [.port (hdIn 20 0), .block enB1,
  .inst false ['m'] ['t', '.', 'm'] [.port (hdIn 22 3), .block enB2] [hdMi]] []]

def enEvents : List Event := [.port (hdIn 20 0), .block enB1, .cuts hdMi, .port (hdIn 22 3), .block enB2, .connect hdMi]

def enCol : Col := (phase1 hdE enTop).toOption.getD {}
def enNet : NetGraph := (netlist hdE Tracker.slots enTop).toOption.getD {}

theorem en_events : eventsAll hdBoxed hdE.opts.propCuts enTop = enEvents := by
  show eventsAll hdBoxed true enTop = enEvents
  simp [enTop, eventsAll, events, hdBoxed, enEvents]

theorem en_blocks : blocksOf enEvents = [enB1, enB2] := rfl

theorem en_elab : Elaborated hdE hdBoxed enTop where
  boxes := by simp [DecidesBoxes, Boxed, hdBoxed, hdE]
  ok := by
    rw [en_events]
    simp [enEvents, EventOk, hdIn, PortDriver.hi, hdE, hdD, hdMi, hdNib, WT, WTs, SExpr.width]
  once := by
    rw [en_events]
    show [20, 22].Nodup
    decide

theorem en_phase1 : phase1 hdE enTop = .ok enCol := by
  obtain ⟨c, h, _⟩ := phase1_total_partial en_elab
  rw [enCol, h]; rfl

theorem en_build : Buildable hdE hdBoxed Tracker.slots enTop where
  design := en_elab
  plain := by
    intro c hc
    rw [en_phase1] at hc
    exact Except.ok.inj hc ▸
      plain_of_two (lo := 0) (mid := 3) (hi := 7) (by decide) (by decide) (by decide +kernel) (by decide) (by decide)
  live := by
    rw [en_events, en_blocks]
    intro b hb; simp at hb; rcases hb with rfl | rfl <;> decide
  events := by
    rw [en_events, en_blocks]
    intro b hb; simp at hb
    rcases hb with rfl | rfl
    · simp [enB1, PlainEvents, SignalEventsOnly, eventsOf, PlainClocks]
    · trivial
  visits := fun _ => List.Perm.refl _
  ports := by
    rw [en_events, en_blocks]
    have : ∀ b ∈ [enB1, enB2], ∀ w ∈ allWrites b.stmt, w.sym < 20 := by
      intro b hb; simp at hb; rcases hb with rfl | rfl <;> decide
    intro p hp b hb w hw
    have := this b hb w hw
    simp [enEvents, hdIn] at hp
    rcases hp with rfl | rfl <;> simp only <;> omega

theorem en_net : netlist hdE Tracker.slots enTop = .ok enNet := by
  obtain ⟨_, _, net, _, _, _, _, h, _⟩ := netlist_total_partial en_build
  rw [enNet, h]; rfl

theorem en_marked : Marked hdBoxed hdE.opts.propCuts id enTop enTop :=
  ⟨rfl, distinct_of_nodup (by rw [en_events]; decide +kernel)⟩

theorem en_loops : combLoops enNet = [] := by decide +kernel

theorem en_clocked : Clocked enB1 := ⟨⟨_, List.mem_singleton.2 rfl, by decide⟩, by simp [enB1, blockEvents, eventsOf]⟩

theorem en_unclocked : ¬ Clocked enB2 := by
  rintro ⟨⟨v, hv, _⟩, _⟩
  cases hv

theorem en_comb {b : Deferred} (hb : b ∈ blocksOf enEvents) (hc : ¬ Clocked b) : b = enB2 := by
  rw [en_blocks] at hb; simp at hb
  exact hb.resolve_left fun h => hc (h ▸ en_clocked)

theorem en_reg {b : Deferred} (hb : b ∈ blocksOf enEvents) (hc : Clocked b) : b = enB1 := by
  rw [en_blocks] at hb; simp at hb
  exact hb.resolve_right fun h => en_unclocked (h ▸ hc)

theorem en_declares {y : Nat} (h : y < 20) : ∀ ev ∈ enEvents, y ∉ declares ev := by
  intro ev hev hy
  simp [enEvents] at hev
  rcases hev with rfl | rfl | rfl | rfl | rfl | rfl <;> simp [declares, hdIn] at hy <;> omega

theorem en_writes {w : Wr} (hw : w ∈ allWrites enB1.stmt) : w = ⟨8, ⟨0, 3⟩, ln 3, false⟩ := by
  simpa [enB1, Deferred.stmt, allWrites, asgWrites] using hw

theorem en_bare {y : Nat} (h : y < 20) (h2 : y ≠ 8) : Bare enEvents y := by
  refine ⟨en_declares h, fun b hb hc w hw => ?_⟩
  obtain rfl := en_reg hb hc
  cases en_writes hw
  exact fun e => h2 e.symm

theorem en_conn {p : PortDecl} {k : Conn} (h : Before enEvents p k) : k = hdMi := by
  have := (before_mem h).2
  simpa [enEvents] using this

theorem en_supply {x j : Nat} {p : PortDecl} (h : LastSupply enEvents x j p) :
    j ≤ 7 ∧ (p = hdIn 20 0 ∧ x = 0 ∨ p = hdIn 22 3 ∧ x = 3) := by
  obtain ⟨pre, post, h1, h2, _⟩ := h
  have hm : Event.port p ∈ enEvents := h1 ▸ by simp
  simp [enEvents] at hm
  obtain ⟨a1, d, a2, a3, a4, a5⟩ := h2
  rcases hm with rfl | rfl <;> simp [hdIn] at a1 a2 <;> subst a2 <;> simp [PortDriver.hi] at a5 <;>
    simp [a1, a5]

/-- What the connection ties. -/
theorem en_ties {p : PortDecl} {k : Conn} {j y q : Nat} (h : Tied hdE enEvents p k j y q) (hj : j ≤ 7) :
    p.sym = 22 ∧ ((j < 4 ∧ y = 8 ∧ q = j) ∨ (4 ≤ j ∧ y = 7 ∧ q + 4 = j)) := by
  obtain ⟨h1, _, ⟨i, h2⟩, e, h3, h4⟩ := h
  obtain rfl := en_conn h1
  cases h3
  have hs : p.sym = 22 := by injection h2 with h2 _; exact h2.symm
  refine ⟨hs, ?_⟩
  rcases h4 with ⟨_, h4⟩ | ⟨h4, _⟩
  · simp [hdNib, Routes, RoutesOps, SExpr.width, AnyCovers, pathsList] at h4
    omega
  · exact absurd ⟨rfl, rfl, by rw [hs]; rfl⟩ h4

theorem en_inlet {y q x j : Nat} (h : Inlet hdE enEvents y q x j) :
    x = 3 ∧ j ≤ 7 ∧ ((j < 4 ∧ y = 8 ∧ q = j) ∨ (4 ≤ j ∧ y = 7 ∧ q + 4 = j)) := by
  obtain ⟨p, k, _, h1, h2⟩ := h
  obtain ⟨h3, h4⟩ := en_supply h2
  obtain ⟨h5, h6⟩ := en_ties h1 h3
  rcases h4 with ⟨rfl, rfl⟩ | ⟨rfl, rfl⟩
  · cases h5
  · exact ⟨rfl, h3, h6⟩

theorem en_inlet_of {j y q : Nat} (h : (j < 4 ∧ y = 8 ∧ q = j) ∨ (4 ≤ j ∧ j ≤ 7 ∧ y = 7 ∧ q + 4 = j)) :
    Inlet hdE enEvents y q 3 j := by
  refine ⟨hdIn 22 3, hdMi, rfl, ⟨⟨enEvents.take 3, (enEvents.take 5).drop 4, [], rfl⟩, ?_, ⟨_, rfl⟩, hdNib, rfl,
    .inl ⟨⟨rfl, rfl, rfl⟩, ?_⟩⟩, ⟨enEvents.take 3, enEvents.drop 4, rfl, ⟨rfl, _, List.mem_singleton.2 rfl, rfl, ?_⟩, ?_⟩⟩
  · intro sym i e _ he _
    cases he
    exact ⟨⟨⟨rfl, rfl⟩, ⟨rfl, rfl⟩, trivial⟩, by simp [hdMi]⟩
  · simp [hdNib, Routes, RoutesOps, SExpr.width, AnyCovers, pathsList]
    omega
  · simp [PortDriver.hi]; omega
  · intro p hp
    simp [enEvents] at hp

theorem en_no_up {prev : Option Conn} {x y j q : Nat} {lo hi : Int} {cuts : CutReg} :
    ¬ Up hdE enEvents cuts prev x lo hi j y q := by
  intro h
  cases h with
  | one h => obtain ⟨p, ho, h, _⟩ := h; cases en_conn h.1; cases ho
  | more h _ => obtain ⟨p, ho, h, _⟩ := h; cases en_conn h.1; cases ho

theorem en_assigned {y q : Nat} {cuts : CutReg} (h : Assigned hdE enEvents cuts y q) : y = 2 := by
  obtain ⟨b, hb, hc, x, j, ⟨w, hw, _, hx, _⟩, h⟩ := h
  obtain rfl := en_comb hb hc
  rcases h with ⟨_, rfl, _⟩ | ⟨_, _, _, h⟩
  · have : ∀ w ∈ allWrites enB2.stmt, w.sym = 2 := by decide
    rw [← hx]; exact this w hw
  · exact absurd h en_no_up

theorem en_regular (cuts : CutReg) : Regular hdE enEvents cuts where
  comb := by
    intro b hb hc
    obtain rfl := en_comb hb hc
    exact comb_single (by decide)
  settled := by
    intro b hb hc
    obtain rfl := en_comb hb hc
    exact settled_apart (by decide) (by decide)
  complete := by
    intro b hb hc x p ⟨w, hw, hh⟩ tr ht
    obtain rfl := en_comb hb hc
    cases ht
    exact ⟨w, hw, hh⟩
  assigned := by
    intro y q h
    have := en_assigned h
    exact ⟨en_bare (by omega) (by omega), by simp [hdE, hdD]⟩
  inlets := by
    intro y q x j h
    obtain ⟨rfl, _⟩ := en_inlet h
    exact ⟨en_bare (by decide) (by decide), by simp [hdE, hdD]⟩
  outlets := by
    intro p k e h ho
    obtain rfl := en_conn h
    cases ho
  nested := ⟨fun x => if x = 3 then 1 else 0, fun y q x j h => by
    obtain ⟨rfl, _, h | h⟩ := en_inlet h <;> simp [h.2.1]⟩

theorem en_four {p : Int} : InRng ⟨0, 3⟩ p ↔ 0 ≤ p ∧ p ≤ 3 := inRng_iff _ _

theorem en_cuts : enCol.cuts 3 = some [4] := by decide +kernel

/-- The connection reads all of `v0`, though it takes half of the port. -/
theorem en_takes {j : Nat} (hj : j < 4) : TakesAll hdE enCol.cuts (hdIn 22 3) hdMi j 8 ⟨0, 3⟩ := by
  refine ⟨hdNib, rfl, .inr ⟨⟨rfl, rfl, rfl⟩, 0, ⟨some 8, 0, 3⟩, ?_, rfl, rfl, Nat.zero_le _, by simp; omega, ?_, ?_⟩⟩
  · exact Operand.part (w := 8) (pre := [.lsp 4 ⟨some 7, 0, 3⟩ []]) (post := []) (.path (p := ⟨some 8, 0, 3⟩))
  · intro d hd
    cases List.mem_singleton.1 hd
    exact .inr (.inr ⟨by simp, by simp [PortDriver.hi]⟩)
  · intro _ x l hx hl m hm
    cases hx
    rw [en_cuts] at hl
    cases hl
    cases List.mem_singleton.1 hm
    simp

theorem en_timed : Timed hdE enEvents enCol.cuts where
  sync := by
    intro b hb hc
    obtain rfl := en_reg hb hc
    refine .assign fun l r h => ?_
    cases h with
    | seg h1 h2 h3 =>
      simp at h1; subst h1; simp at h2; subst h2
      cases h3
      refine fits_same fun w hw hs => ?_
      cases en_writes hw
      cases hs
  count := by
    intro b hb hc who r Q hu p hp
    obtain rfl := en_reg hb hc
    have : ∀ x ∈ usesOf enB1.stmt, x.2.bounds = ⟨0, 3⟩ := by decide
    rw [this _ (use_of hu)] at hp
    exact (en_four.1 hp).1
  range := by
    intro b hb hc w hw
    obtain rfl := en_reg hb hc
    have hb' : ∀ w ∈ allWrites enB1.stmt, w.bounds = ⟨0, 3⟩ := by decide
    rw [hb' w hw]
    refine ⟨by decide, fun v hv _ => hb' v hv, fun b' h' who r Q hu hs => ?_⟩
    cases en_writes hw
    have : ∀ b ∈ [enB1, enB2], ∀ x ∈ usesOf b.stmt, x.2.sym ≠ 8 := by
      intro b hb; simp at hb; rcases hb with rfl | rfl <;> decide
    exact absurd hs (this b' h' _ (use_of hu))
  alone := by
    intro b hb hc w hw
    obtain rfl := en_reg hb hc
    cases en_writes hw
    refine ⟨by simp [hdE, hdD], en_declares (by decide), ⟨[], [enB2], rfl, ?_⟩, ?_⟩
    · intro b' hb' hc'
      cases List.mem_singleton.1 hb'
      exact absurd hc' en_unclocked
    · intro p k q x j _ ht hl hq
      have := en_four.1 hq
      obtain ⟨h1, h2⟩ := en_supply hl
      obtain ⟨h3, h4⟩ := en_ties ht h1
      obtain rfl := en_conn ht.1
      rcases h2 with ⟨rfl, _⟩ | ⟨rfl, _⟩
      · cases h3
      · exact en_takes (h4.elim (fun h => h.1) fun h => absurd h.2.1 (by decide))
  outs := by
    intro b hb x j y q hk h
    rcases h with ⟨h, _⟩ | ⟨_, _, _, h⟩
    · exact absurd hk.1 h
    · exact absurd h en_no_up
  last := by
    intro b hb hc x p loc hl w hw hh
    obtain rfl := en_reg hb hc
    cases en_writes hw
    refine .inl ?_
    rcases hl with ⟨pre, v, post, h1, _, h3, _⟩ | ⟨h, _⟩
    · have hn : nbaWrites true enB1.stmt = [⟨8, ⟨0, 3⟩, ln 3, false⟩] := by decide
      have : v ∈ nbaWrites true enB1.stmt := h1 ▸ by simp
      rw [hn] at this
      cases List.mem_singleton.1 this
      exact h3
    · exact absurd hh (h _ (by decide))

/-- What the lines and the connection compute. -/
def enM : Meaning Bool where
  value := fun loc ρ _ p => if loc.line = 3 then decide (0 ≤ p ∧ p ≤ 3) && ρ 0 p else decide (0 ≤ p ∧ p ≤ 7) && ρ 3 p
  pick := fun _ _ _ _ => false
  feed := fun x j ρ => decide (x = 3 ∧ j ≤ 7) && if j < 4 then ρ 8 j else ρ 7 (j - 4 : Nat)

/-- The values when `a` is always `v`: after the first clock edge `v0` is the lower half of it. -/
def enVals (v : Bool) (t : Nat) : Vals Bool := fun x p =>
  if x = 0 then v else v && decide (1 ≤ t) && decide (0 ≤ p ∧ p ≤ 3) && decide (x = 2 ∨ x = 3 ∨ x = 8)

theorem en_faithful : Faithful enM hdE enEvents where
  blocks := by
    intro b hb hc
    obtain rfl := en_comb hb hc
    intro l hl
    simp [asgLocs] at hl; subst hl
    exact looks_lsp (g := ⟨[dsRef 2], [.lsp (dsRef 3)], ln 4⟩) (n := 3) (by simp) (by simp) (fun _ _ _ => by simp [enM, ln])
  inlets := by
    intro x j ρ ρ' h
    by_cases hx : x = 3 ∧ j ≤ 7
    · obtain ⟨rfl, hj⟩ := hx
      by_cases h4 : j < 4
      · simp [enM, h4, h 8 j ⟨j, rfl, en_inlet_of (.inl ⟨h4, rfl, rfl⟩)⟩]
      · simp [enM, h4, h 7 (j - 4 : Nat) ⟨j - 4, rfl, en_inlet_of (.inr ⟨by omega, hj, rfl, by omega⟩)⟩]
    · simp only [enM, hx, decide_false, Bool.false_and]

theorem en_reflects : Reflects enM enB1.stmt := by
  intro l hl
  simp [asgLocs] at hl; subst hl
  intro ρ ρ' h
  funext x p
  by_cases hp : 0 ≤ p ∧ p ≤ 3
  · have := h 0 p ⟨⟨0, ⟨0, 3⟩, 0, false⟩, .seg (g := ⟨[⟨8, ⟨0, 3⟩, 0, false⟩], [.lsp ⟨0, ⟨0, 3⟩, 0, false⟩], ln 3⟩)
      (by simp) (by simp) (.lsp _), rfl, en_four.2 hp⟩
    simp [enM, ln, this]
  · simp only [enM, ln, hp, decide_false, Bool.false_and, if_true]

theorem en_solves (v : Bool) (t : Nat) : Solves enM hdE enEvents (enVals v t) where
  blocks := by
    intro b hb hc x p ⟨w, hw, _, h1, h2⟩
    obtain rfl := en_comb hb hc
    simp [enB2, Deferred.stmt, allWrites, asgWrites, dsRef] at hw
    subst hw
    have h3 : 2 = x ∧ 0 ≤ p ∧ p ≤ 7 := ⟨h1, eight.1 h2⟩
    obtain ⟨rfl, h3⟩ := h3
    simp [enB2, Deferred.stmt, run, store, asgWrites, dsRef, enM, enVals, BitRange.lower, BitRange.upper, ln, h3]
  inlets := by
    intro y q x j h
    obtain ⟨rfl, hj, _⟩ := en_inlet h
    by_cases h4 : j < 4
    · simp [enM, enVals, hj, h4]
    · simp [enM, enVals, hj, h4]; omega
  outlets := by
    rintro x j y q ⟨p, k, e, ho, h, _⟩
    cases en_conn h.1
    cases ho

theorem en_kept {b : Deferred} {x j : Nat} (hb : b ∈ blocksOf enEvents) (h : Kept b x j) : b = enB1 ∧ x = 8 ∧ j ≤ 3 := by
  obtain ⟨hc, w, hw, _, h1, h2⟩ := h
  obtain rfl := en_reg hb hc
  cases en_writes hw
  exact ⟨rfl, h1.symm, by have := (en_four.1 h2).2; omega⟩

theorem en_unrolls (v : Bool) : Unrolls enM hdE enEvents (fun _ _ => true) (enVals v) where
  stable := en_solves v
  step := by
    intro t b hb x j hk
    obtain ⟨rfl, rfl, hj⟩ := en_kept hb hk
    have h3 : (0 : Int) ≤ j ∧ (j : Int) ≤ 3 := by omega
    simp [enB1, Deferred.stmt, later, store, asgWrites, enM, enVals, BitRange.lower, BitRange.upper, ln, h3] <;> omega

theorem en_init : ∀ b ∈ blocksOf enEvents, ∀ x j, Kept b x j → enVals false 0 x j = enVals true 0 x j := by
  intro b hb x j hk
  obtain ⟨rfl, rfl, hj⟩ := en_kept hb hk
  simp [enVals]

/-- `w` differs at time 1, so there is a path, through the register and into the instance. -/
example : ∃ net', netlist hdE Tracker.slots enTop = .ok net' ∧ enNet = moveNet id net' ∧
    ∃ loc, Leaves enB2.stmt 2 1 loc ∧ ∃ t' ≤ 1, ∃ s q z i who,
      Source hdE (eventsAll hdBoxed hdE.opts.propCuts enTop) enCol.cuts s q ∧
      ¬ Held hdE (eventsAll hdBoxed hdE.opts.propCuts enTop) enCol.cuts s q ∧ enVals false t' s q ≠ enVals true t' s q ∧
      Brings hdE (eventsAll hdBoxed hdE.opts.propCuts enTop) s q z i ∧
      Sees (eventsAll hdBoxed hdE.opts.propCuts enTop) z i who ∧
      ∃ m ∈ enNet.g.nodes, ∃ n ∈ enNet.g.nodes, net'.data m = who ∧ net'.data n = .assignment loc ∧
        Reach (Joined enNet) m n :=
  influence_over_time_partial (M := enM) en_build en_phase1 en_net en_marked en_loops (by rw [en_events]; exact en_regular _)
    (by rw [en_events]; exact en_timed) (by rw [en_events]; exact en_faithful)
    (by rw [en_events]; intro b hb hc; rw [en_reg hb hc]; exact en_reflects) (fire := fun _ _ => true)
    (by rw [en_events]; exact en_unrolls false) (by rw [en_events]; exact en_unrolls true)
    (by rw [en_events]; exact en_init) (b := enB2) (by rw [en_events, en_blocks]; simp)
    (.inr ⟨en_unclocked, ⟨2, ⟨0, 7⟩, ln 4, true⟩, by decide, rfl, rfl, eight.2 (by decide)⟩) (by decide)

/-- The path the netlist has: line 3, the register `v0`, the lower half of port `mi`, line 4. -/
example : (enNet.g.nodes.map enNet.data).map NodeData.kind =
    [.port, .port, .port, .assignment, .state, .assignment] ∧
    findPath enNet 3 5 = some [3, 4, 1, 5] := by decide +kernel

end Verif.Props

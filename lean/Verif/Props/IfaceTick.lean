import Verif.Props.IfaceClock
import Verif.Props.Tick

/-!
C102: what a clock that the design computes does to a register on an interface is not in the netlist.
```
interface I; logic [7:0] m; modport p(output m); modport c(input m); endinterface
module t(input [7:0] a, c, output [7:0] y); I i(); logic [7:0] k;
  assign k = a;                                                       // line 1
module prod(I.p i, input [7:0] k, c); always_ff @(posedge k) i.m <= c; // line 2
module cons(I.c i, output [7:0] y); assign y = i.m;                   // line 4
```
The insides of the ports are the signals 0, 3 and 1, `k` is signal 10, the modport ports are the signals 30 and 31,
and the variable `m` is signal 32.
-/
namespace Verif.Props
open Verif.Model Verif.Spec Verif.Proofs

def iqB1 : Deferred := .procedural .alwaysFF (.timed (.signalEvent ⟨.posEdge, some 10⟩))
  (.assign (tkAt 2) false (.aligned [⟨[dsRef 30], [.lsp (dsRef 3)], tkAt 2⟩]))
def iqB2 : Deferred := .continuous (tkAt 4) (.aligned [⟨[dsRef 1], [.lsp (dsRef 31)], tkAt 4⟩])

def iqTop : List Member := [.inst false ['t'] ['t'] [.port (hdIn 20 0), .port (hdIn 22 3), .port (hdOut 21 1),
  .inst false ['I'] ['t', '.', 'i'] [.variable 32 true [(0, 7)]] [], .block tkB0, .block iqB1, .block iqB2] []]

def iqEvents : List Event := [.port (hdIn 20 0), .port (hdIn 22 3), .port (hdOut 21 1), .variable 32 [(0, 7)],
  .block tkB0, .block iqB1, .block iqB2]

def iqCol : Col := (phase1 ivE iqTop).toOption.getD {}
def iqNet : NetGraph := (netlist ivE Tracker.slots iqTop).toOption.getD {}

theorem iq_events : eventsAll hdBoxed ivE.opts.propCuts iqTop = iqEvents := by
  show eventsAll hdBoxed true iqTop = iqEvents
  simp [iqTop, eventsAll, events, hdBoxed, iqEvents]

theorem iq_blocks : blocksOf iqEvents = [tkB0, iqB1, iqB2] := rfl

theorem iq_elab : Elaborated ivE hdBoxed iqTop where
  boxes := by simp [DecidesBoxes, Boxed, hdBoxed, ivE, hdE]
  ok := by
    rw [iq_events]
    simp [iqEvents, EventOk, hdIn, hdOut, PortDriver.hi, ivE, ivD, hdE, hdD]
  once := by
    rw [iq_events]
    show [20, 22, 21, 32].Nodup
    decide

theorem iq_phase1 : phase1 ivE iqTop = .ok iqCol := by
  obtain ⟨c, h, _⟩ := phase1_total_partial iq_elab
  rw [iqCol, h]; rfl

theorem iq_build : Buildable ivE hdBoxed Tracker.slots iqTop where
  design := iq_elab
  plain := by
    intro c hc
    rw [iq_phase1] at hc
    exact Except.ok.inj hc ▸
      plain_of_two (lo := 0) (mid := 3) (hi := 7) (by decide) (by decide) (by decide +kernel) (by decide) (by decide)
  live := by
    rw [iq_events, iq_blocks]
    intro b hb; simp at hb; rcases hb with rfl | rfl | rfl <;> decide
  events := by
    rw [iq_events, iq_blocks]
    intro b hb; simp at hb
    rcases hb with rfl | rfl | rfl
    · trivial
    · simp [iqB1, PlainEvents, SignalEventsOnly, eventsOf, PlainClocks]
    · trivial
  visits := fun _ => List.Perm.refl _
  ports := by
    rw [iq_events, iq_blocks]
    have : ∀ b ∈ [tkB0, iqB1, iqB2], ∀ w ∈ allWrites b.stmt, w.sym < 20 ∨ w.sym = 30 := by
      intro b hb; simp at hb; rcases hb with rfl | rfl | rfl <;> decide
    intro p hp b hb w hw
    have := this b hb w hw
    simp [iqEvents, hdIn, hdOut] at hp
    rcases hp with rfl | rfl | rfl <;> simp only <;> omega

theorem iq_net : netlist ivE Tracker.slots iqTop = .ok iqNet := by
  obtain ⟨_, _, net, _, _, _, _, h, _⟩ := netlist_total_partial iq_build
  rw [iqNet, h]; rfl

theorem iq_marked : Marked hdBoxed ivE.opts.propCuts id iqTop iqTop :=
  ⟨rfl, distinct_of_nodup (by rw [iq_events]; decide +kernel)⟩

theorem iq_clear : ¬ Clocked iqB2 := fun h => by
  obtain ⟨⟨v, hv, _⟩, _⟩ := h
  cases hv

theorem iq_clocked : Clocked iqB1 := ⟨⟨_, List.mem_singleton.2 rfl, by decide⟩, by simp [iqB1, blockEvents, eventsOf]⟩

theorem iq_comb {b : Deferred} (hb : b ∈ blocksOf iqEvents) (hc : ¬ Clocked b) : b = tkB0 ∨ b = iqB2 := by
  rw [iq_blocks] at hb; simp at hb
  rcases hb with h | rfl | h
  · exact .inl h
  · exact absurd iq_clocked hc
  · exact .inr h

theorem iq_reg {b : Deferred} (hb : b ∈ blocksOf iqEvents) (hc : Clocked b) : b = iqB1 := by
  rw [iq_blocks] at hb; simp at hb
  rcases hb with rfl | h | rfl
  · exact absurd hc tk_assign
  · exact h
  · exact absurd hc iq_clear

theorem iq_declares {y : Nat} (h : y < 20) : ∀ ev ∈ iqEvents, y ∉ declares ev := by
  intro ev hev hy
  simp [iqEvents] at hev
  rcases hev with rfl | rfl | rfl | rfl | rfl | rfl | rfl <;> simp [declares, hdIn, hdOut] at hy <;> omega

theorem iq_write {w : Wr} (hw : w ∈ allWrites iqB1.stmt) : w = ⟨30, ⟨0, 7⟩, tkAt 2, false⟩ := by
  simpa [iqB1, Deferred.stmt, allWrites, asgWrites, dsRef] using hw

theorem iq_bare {y : Nat} (h : y < 20) : Bare iqEvents y := by
  refine ⟨iq_declares h, fun b hb hc w hw => ?_⟩
  obtain rfl := iq_reg hb hc
  rw [iq_write hw]; simp only; omega

theorem iq_on {y : Nat} : OnIface ivE iqEvents y ↔ y = 30 ∨ y = 31 ∨ y = 32 := by
  constructor
  · rintro (h | ⟨ds, h⟩)
    · by_cases h1 : y = 30 ∨ y = 31
      · omega
      · by_cases h2 : y = 32 <;> simp [ivE, ivD, h1, h2] at h
    · simp [iqEvents] at h; omega
  · rintro (rfl | rfl | rfl)
    · exact .inl rfl
    · exact .inl rfl
    · exact .inr ⟨[(0, 7)], by simp [iqEvents]⟩

theorem iq_no_conn {p : PortDecl} {k : Conn} : ¬ Before iqEvents p k := by
  intro h
  have := (before_mem h).2
  simp [iqEvents] at this

theorem iq_no_inlet {y q x j : Nat} : ¬ Inlet ivE iqEvents y q x j := by
  rintro ⟨p, k, _, h, _⟩
  exact iq_no_conn h.1

theorem iq_no_up {prev : Option Conn} {x y j q : Nat} {lo hi : Int} {cuts : CutReg} :
    ¬ Up ivE iqEvents cuts prev x lo hi j y q := by
  intro h
  cases h with
  | one h => obtain ⟨p, _, h, _⟩ := h; exact iq_no_conn h.1
  | more h _ => obtain ⟨p, _, h, _⟩ := h; exact iq_no_conn h.1

theorem iq_assigned {y q : Nat} {cuts : CutReg} (h : Assigned ivE iqEvents cuts y q) : y = 1 ∨ y = 10 := by
  obtain ⟨b, hb, hc, x, j, ⟨w, hw, _, hx, _⟩, h⟩ := h
  rcases h with ⟨_, rfl, _⟩ | ⟨_, _, _, h⟩
  · have : ∀ b ∈ [tkB0, iqB2], ∀ w ∈ allWrites b.stmt, w.sym = 1 ∨ w.sym = 10 := by
      intro b hb; simp at hb; rcases hb with rfl | rfl <;> decide
    rw [← hx]; exact this b (by simpa using iq_comb hb hc) w hw
  · exact absurd h iq_no_up

theorem iq_driven {q : Nat} {d : Nat × Nat} (h : DrivenRange iqEvents 32 q d) : d = (0, 7) := by
  obtain ⟨_, _, ds, h1, h2⟩ := h
  simp [iqEvents] at h1
  subst h1
  simpa using h2

theorem iq_regular (cuts : CutReg) : RegularVia ivE iqEvents cuts ivVia where
  comb := by
    intro b hb hc
    rcases iq_comb hb hc with rfl | rfl <;> exact comb_single (by decide)
  settled := by
    intro b hb hc
    rcases iq_comb hb hc with rfl | rfl <;> exact settled_apart (by decide) (by decide)
  complete := by
    intro b hb hc x p ⟨w, hw, hh⟩ tr ht
    rcases iq_comb hb hc with rfl | rfl <;> cases ht <;> exact ⟨w, hw, hh⟩
  assigned := by
    intro y q h
    rcases iq_assigned h with rfl | rfl <;> exact .inr ⟨iq_bare (by decide), by decide⟩
  inlets := fun y q x j h => absurd h iq_no_inlet
  wired := fun p k x j y q _ h => absurd h.1 iq_no_conn
  outlets := fun p k e h => absurd h iq_no_conn
  inside := by
    rintro x j y q ⟨p, k, e, _, h, _⟩
    exact absurd h.1 iq_no_conn
  nested := ⟨fun _ => 0, fun y q x j h => absurd h iq_no_inlet⟩
  reads := by
    intro b hb hc who r Q hu hon i hi hno
    have hr := use_in hu
    rw [iq_on] at hon
    rcases iq_comb hb hc with rfl | rfl <;> simp [tkB0, iqB2, Deferred.stmt, readsOf] at hr <;> subst hr
    · simp [dsRef] at hon
    · have hi' : 0 ≤ (i : Int) ∧ (i : Int) ≤ 7 := eight.1 hi
      exact ⟨(0, 7), ⟨by simp, by simp [ivVia, dsRef]; omega, [(0, 7)], by simp [iqEvents, ivVia, dsRef], by simp⟩,
        .inl ⟨rfl, List.mem_singleton.2 rfl, i, hi, hno⟩⟩
  writes := by
    intro b hb hc y i ⟨w, hw, _, hy, _⟩ hon
    rw [iq_on] at hon
    have : ∀ b ∈ [tkB0, iqB2], ∀ w ∈ allWrites b.stmt, w.sym < 20 := by
      intro b hb; simp at hb; rcases hb with rfl | rfl <;> decide
    have := this b (by simpa using iq_comb hb hc) w hw
    omega
  clocks := by
    intro x ds h b hb hc w hw
    simp [iqEvents] at h
    obtain rfl := iq_reg hb hc
    rw [iq_write hw]; simp only; omega

theorem iq_kept {b : Deferred} {x j : Nat} (hb : b ∈ blocksOf iqEvents) (h : Kept b x j) :
    b = iqB1 ∧ x = 30 ∧ j ≤ 7 := by
  obtain ⟨hc, w, hw, _, h1, h2⟩ := h
  obtain rfl := iq_reg hb hc
  obtain rfl := iq_write hw
  exact ⟨rfl, h1.symm, by have := (eight.1 h2).2; omega⟩

theorem iq_timed (cuts : CutReg) : TimedVia ivE iqEvents cuts ivVia where
  sync := by
    intro b hb hc
    obtain rfl := iq_reg hb hc
    refine .assign fun l r h => fits_same fun w hw _ => ?_
    rw [iq_write hw]
    cases h with
    | seg h1 h2 h3 => simp at h1; subst h1; simp at h2; subst h2; cases h3; rfl
  count := by
    intro b hb hc who r Q hu p hp
    obtain rfl := iq_reg hb hc
    have : ∀ x ∈ usesOf iqB1.stmt, x.2.bounds = ⟨0, 7⟩ := by decide
    rw [this _ (use_of hu)] at hp
    exact (eight.1 hp).1
  kept := by
    intro b hb hc w hw hon
    obtain rfl := iq_reg hb hc
    rw [iq_write hw] at hon
    exact absurd (iq_on.2 (.inl rfl)) hon
  outs := by
    intro b hb x j y q hk h
    rcases h with ⟨h, _⟩ | ⟨_, _, _, h⟩
    · exact absurd hk.1 h
    · exact absurd h iq_no_up
  last := by
    intro b hb hc x p loc hl w hw hh
    refine .inl ?_
    obtain rfl := iq_reg hb hc
    have hn : nbaWrites true iqB1.stmt = [w] := by rw [iq_write hw]; decide
    rcases hl with ⟨pre, v', post, h1, _, h3, _⟩ | ⟨h, _⟩
    · rw [hn] at h1
      obtain ⟨_, rfl, _⟩ := single_split h1
      exact h3
    · exact absurd hh (h _ (by rw [hn]; simp))
  reads := by
    intro b hb hc who r Q hu hon i hi hno
    have hr := use_in hu
    rw [iq_on] at hon
    obtain rfl := iq_reg hb hc
    simp [iqB1, Deferred.stmt, readsOf] at hr
    subst hr
    simp [dsRef] at hon
  writes := by
    intro b hb y i hk hon d hd
    obtain ⟨rfl, rfl, _⟩ := iq_kept hb hk
    obtain rfl : d = (0, 7) := iq_driven (q := (ivVia 30 i).2) hd
    exact .inl ⟨rfl, fun e => List.mem_singleton.2 rfl⟩

theorem iq_clocks : WholeClocks ivE.D iqEvents := by
  intro b hb v hv z hz b' hb' hc' w hw hs
  obtain rfl := iq_reg hb' hc'
  rw [iq_blocks] at hb; simp at hb
  rcases hb with rfl | rfl | rfl
  · cases hv
  · simp [iqB1, blockEvents, eventsOf] at hv
    subst hv
    cases hz
    rw [iq_write hw] at hs
    cases hs
  · cases hv

/-- What the lines compute. -/
def iqM : Meaning Bool where
  value := fun loc ρ _ p => decide (0 ≤ p ∧ p ≤ 7) && if loc.line = 1 then ρ 0 p else
    if loc.line = 2 then ρ 3 p else if loc.line = 4 then ρ 31 p else false
  pick := fun _ _ _ _ => false
  feed := fun _ _ _ => false

/-- The values when `c` is always 1 and `a` becomes `v` at time 1, and with it the clock: `i.m` becomes `v` at
time 2. -/
def iqVals (v : Bool) (t : Nat) : Vals Bool := fun x p =>
  decide (0 ≤ p ∧ p ≤ 7) && if x = 0 ∨ x = 10 then v && decide (1 ≤ t) else
    if x = 1 ∨ 30 ≤ x ∧ x ≤ 32 then v && decide (2 ≤ t) else decide (x = 3)

/-- A rising edge of bit 0 of the clock. -/
def iqFire (σ : Nat → Vals Bool) : Nat → Deferred → Bool
  | t + 1, .procedural .. => !σ t 10 0 && σ (t + 1) 10 0
  | _, _ => false

theorem iq_triggers : Triggers ivE.D iqEvents iqFire := by
  intro b hb t σ σ' h
  rw [iq_blocks] at hb; simp at hb
  rcases hb with rfl | rfl | rfl
  · cases t <;> rfl
  · have key : ∀ t' ≤ t, σ t' 10 0 = σ' t' 10 0 := fun t' h' => h t' h' 10 0
      ⟨⟨.posEdge, some 10⟩, by simp [iqB1, blockEvents, eventsOf], rfl, by decide⟩
    cases t with
    | zero => rfl
    | succ t =>
      show (!σ t 10 0 && σ (t + 1) 10 0) = (!σ' t 10 0 && σ' (t + 1) 10 0)
      rw [key t (by omega), key (t + 1) (by omega)]
  · cases t <;> rfl

theorem iq_shared (v : Bool) (t : Nat) : Shared ivE iqEvents ivVia (iqVals v t) := by
  intro y i h
  rcases iq_on.1 h with rfl | rfl | rfl <;> rfl

theorem iq_faithful : Faithful iqM ivE iqEvents where
  blocks := by
    intro b hb hc
    rcases iq_comb hb hc with rfl | rfl <;> intro l hl <;> simp [asgLocs] at hl <;> subst hl
    · exact looks_lsp (g := ⟨[dsRef 10], [.lsp (dsRef 0)], tkAt 1⟩) (n := 0) (by simp) (by simp) (fun _ _ _ => by simp [iqM, tkAt])
    · exact looks_lsp (g := ⟨[dsRef 1], [.lsp (dsRef 31)], tkAt 4⟩) (n := 31) (by simp) (by simp) (fun _ _ _ => by simp [iqM, tkAt])
  inlets := fun x j ρ ρ' _ => rfl

theorem iq_reflects : ∀ b ∈ blocksOf iqEvents, Clocked b → Reflects iqM b.stmt := by
  intro b hb hc
  obtain rfl := iq_reg hb hc
  intro l hl
  simp [asgLocs] at hl; subst hl
  exact looks_lsp (g := ⟨[dsRef 30], [.lsp (dsRef 3)], tkAt 2⟩) (n := 3) (by simp) (by simp) (fun _ _ _ => by simp [iqM, tkAt])

theorem iq_unrolls (v : Bool) : Unrolls iqM ivE iqEvents (iqFire (iqVals v)) (iqVals v) where
  stable := fun t => {
    blocks := by
      intro b hb hc x p ⟨w, hw, hh⟩
      obtain ⟨_, h1, h2⟩ := hh
      rcases iq_comb hb hc with rfl | rfl <;>
        simp [tkB0, iqB2, Deferred.stmt, allWrites, asgWrites, dsRef] at hw <;> subst hw <;>
        have h3 := eight.1 h2 <;> simp only at h1 <;> subst h1 <;>
        simp [tkB0, iqB2, Deferred.stmt, run, store, asgWrites, dsRef, iqM, iqVals, BitRange.lower,
          BitRange.upper, tkAt, h3]
    inlets := fun y q x j h => absurd h iq_no_inlet
    outlets := by
      rintro x j y q ⟨p, k, e, _, h, _⟩
      exact absurd h.1 iq_no_conn }
  step := by
    intro t b hb x j hk
    obtain ⟨rfl, rfl, hj⟩ := iq_kept hb hk
    have h3 : (0 : Int) ≤ j ∧ (j : Int) ≤ 7 := by omega
    have hl : later iqM iqB1.stmt (fun _ => true) (iqVals v t) (iqVals v t) 30 j = true := by
      simp [iqB1, Deferred.stmt, later, store, asgWrites, dsRef, iqM, iqVals, BitRange.lower, BitRange.upper, tkAt, h3]
      omega
    rw [hl]
    rcases t with _ | _ | t
    · simp [iqFire, iqVals, iqB1]
    · cases v <;> simp [iqFire, iqVals, iqB1, h3]
    · cases v <;> simp [iqFire, iqVals, iqB1, h3]

theorem iq_init : ∀ b ∈ blocksOf iqEvents, ∀ x j, Kept b x j → iqVals false 0 x j = iqVals true 0 x j := by
  intro b hb x j hk
  obtain ⟨rfl, rfl, _⟩ := iq_kept hb hk
  simp [iqVals]

theorem iq_sources {s q t : Nat} {cuts : CutReg} (h : OuterSource ivE iqEvents cuts ivVia s q)
    (hh : ¬ HeldVia ivE iqEvents cuts ivVia s q) (hne : iqVals false t s q ≠ iqVals true t s q) :
    LastSupply iqEvents s q (hdIn 20 0) := by
  have h0 : (s = 0 ∨ s = 10 ∨ s = 1 ∨ s = 30 ∨ s = 31 ∨ s = 32) ∧ q ≤ 7 := by
    refine Classical.byContradiction fun hc => hne ?_
    unfold iqVals
    by_cases h1 : s = 0 ∨ s = 10 ∨ s = 1 ∨ s = 30 ∨ s = 31 ∨ s = 32
    · rw [decide_eq_false (by omega : ¬ (0 ≤ (q : Int) ∧ (q : Int) ≤ 7))]
      rfl
    · rw [if_neg (by omega), if_neg (by omega), if_neg (by omega), if_neg (by omega)]
  obtain ⟨h1, hq⟩ := h0
  have hon : ¬ (s = 30 ∨ s = 31 ∨ s = 32) := fun hs => hh (.inr ⟨iq_on.2 hs, iqB1, by rw [iq_blocks]; simp, 30, q,
    iq_on.2 (.inl rfl), by rcases hs with rfl | rfl | rfl <;> rfl,
    iq_clocked, ⟨30, ⟨0, 7⟩, tkAt 2, false⟩, by decide, rfl, rfl, eight.2 (by omega)⟩)
  rcases h1 with rfl | rfl | rfl | hs | hs | hs
  · refine ⟨[], _, rfl, ⟨rfl, ⟨0, 7, true⟩, by simp [hdIn], rfl, by simp, hq⟩, ?_⟩
    intro p hp hs
    simp at hp
    rcases hp with rfl | rfl <;> simp [Supplies, hdIn, hdOut] at hs
  · exact absurd ⟨tkB0, by rw [iq_blocks]; simp, tk_assign, 10, q,
      ⟨⟨10, ⟨0, 7⟩, tkAt 1, true⟩, by decide, rfl, rfl, eight.2 (by omega)⟩, .inl ⟨tk_assign, rfl, rfl⟩⟩ h.1.1
  · exact absurd ⟨iqB2, by rw [iq_blocks]; simp, iq_clear, 1, q,
      ⟨⟨1, ⟨0, 7⟩, tkAt 4, true⟩, by decide, rfl, rfl, eight.2 (by omega)⟩, .inl ⟨iq_clear, rfl, rfl⟩⟩ h.1.1
  all_goals exact absurd (by omega) hon

/-- What a clock does to a register on an interface is lost. A register written through a modport port has a state
node into which the clock leads, and no edge leads out of it (`modport_register_bypassed`), because the readers are
joined with the assignment. The two observations differ, among the bits that come from outside, in bits of `a` only,
which decide whether there is an edge of the clock; at time 2 they differ in a bit of output `y`; and no query for a
path from `a` to `y` finds one. All hypotheses of C102 hold but that the blocks fire at the same times in both, and
when they fire is determined as in C90 (`iq_clocks` included), so that C90 does not hold through interfaces. -/
theorem clock_lost_on_interface :
    Buildable ivE hdBoxed Tracker.slots iqTop ∧ Marked hdBoxed ivE.opts.propCuts id iqTop iqTop ∧
    ∃ c net via, phase1 ivE iqTop = .ok c ∧ netlist ivE Tracker.slots iqTop = .ok net ∧ combLoops net = [] ∧
    RegularVia ivE (eventsAll hdBoxed ivE.opts.propCuts iqTop) c.cuts via ∧
    TimedVia ivE (eventsAll hdBoxed ivE.opts.propCuts iqTop) c.cuts via ∧
    WholeClocks ivE.D (eventsAll hdBoxed ivE.opts.propCuts iqTop) ∧
    ∃ (M : Meaning Bool) (T : (Nat → Vals Bool) → Nat → Deferred → Bool) (σ σ' : Nat → Vals Bool),
      Faithful M ivE (eventsAll hdBoxed ivE.opts.propCuts iqTop) ∧
      (∀ b ∈ blocksOf (eventsAll hdBoxed ivE.opts.propCuts iqTop), Clocked b → Reflects M b.stmt) ∧
      Triggers ivE.D (eventsAll hdBoxed ivE.opts.propCuts iqTop) T ∧
      Unrolls M ivE (eventsAll hdBoxed ivE.opts.propCuts iqTop) (T σ) σ ∧
      Unrolls M ivE (eventsAll hdBoxed ivE.opts.propCuts iqTop) (T σ') σ' ∧
      (∀ t, Shared ivE (eventsAll hdBoxed ivE.opts.propCuts iqTop) via (σ t)) ∧
      (∀ t, Shared ivE (eventsAll hdBoxed ivE.opts.propCuts iqTop) via (σ' t)) ∧
      (∀ b ∈ blocksOf (eventsAll hdBoxed ivE.opts.propCuts iqTop), ∀ x j, Kept b x j → σ 0 x j = σ' 0 x j) ∧
      (∀ t s q, OuterSource ivE (eventsAll hdBoxed ivE.opts.propCuts iqTop) c.cuts via s q →
        ¬ HeldVia ivE (eventsAll hdBoxed ivE.opts.propCuts iqTop) c.cuts via s q → σ t s q ≠ σ' t s q →
        LastSupply (eventsAll hdBoxed ivE.opts.propCuts iqTop) s q (hdIn 20 0)) ∧
      σ 2 1 0 ≠ σ' 2 1 0 ∧
      ∀ q n m, PortNode ivE.D net (hdIn 20 0) q n → PortNode ivE.D net (hdOut 21 1) 0 m → findPath net n m = some [] := by
  refine ⟨iq_build, iq_marked, iqCol, iqNet, ivVia, iq_phase1, iq_net, by decide +kernel, ?_⟩
  rw [iq_events]
  refine ⟨iq_regular _, iq_timed _, iq_clocks, iqM, iqFire, iqVals false, iqVals true, iq_faithful, iq_reflects,
    iq_triggers, iq_unrolls false, iq_unrolls true, iq_shared false, iq_shared true, iq_init, fun t s q => iq_sources,
    by decide, ?_⟩
  intro q n m h3 h4
  obtain ⟨n1, x, b, hx, _, n2⟩ := h3
  obtain ⟨m1, y, b', hy, _, m2⟩ := h4
  cases hx; cases hy
  exact (by decide +kernel : ∀ n ∈ iqNet.g.nodes, ∀ m ∈ iqNet.g.nodes,
    portName (iqNet.data n) = some ['a'] → portName (iqNet.data m) = some ['b'] →
      findPath iqNet n m = some []) n n1 m m1 (by rw [n2]; rfl) (by rw [m2]; rfl)

/-- There are nodes for both, so that the queries above are some. -/
example : (∃ n ∈ iqNet.g.nodes, portName (iqNet.data n) = some ['a']) ∧
    ∃ m ∈ iqNet.g.nodes, portName (iqNet.data m) = some ['b'] := by decide +kernel

/-- The clock's assignment leads to the register, and the register leads nowhere. -/
example : ∃ n ∈ iqNet.g.nodes, ∃ m ∈ iqNet.g.nodes, iqNet.data n = .assignment (tkAt 1) ∧ (iqNet.data m).kind = .state ∧
    findPath iqNet n m ≠ some [] ∧ ∀ k ∈ iqNet.g.nodes, k ≠ m → findPath iqNet m k = some [] := by decide +kernel

end Verif.Props

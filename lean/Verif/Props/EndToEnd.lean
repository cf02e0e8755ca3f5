import Verif.Props.Sound
import Verif.Props.Query
import Verif.Props.Loops

/-!
C67: the answers of the queries on the netlist of an elaborated design, in terms of the design.
-/
namespace Verif.Props
open Verif.Model Verif.Spec Verif.Proofs

/-! ### From the graph to the design -/

theorem step_iff_joined {E : TravEnv} {es : List Event} {G : Grain} {net : NetGraph}
    (h : Reachable net ∧ Sound E es G net) (s t : Nat) : Step net s t ↔ Joined net s t := by
  constructor
  · rintro ⟨_, e, he, ht, _⟩; exact ⟨e, he, ht⟩
  · intro hj
    have hs := (joined_nodes h.1 hj).1
    obtain ⟨e, he, ht⟩ := hj
    exact ⟨hs, e, he, ht, (h.2 s hs e he).1⟩

theorem step_depends {E : TravEnv} {es : List Event} {G : Grain} {net : NetGraph}
    (h : Reachable net ∧ Sound E es G net) {s t : Nat} (hs : Step net s t) :
    Depends E es G (net.data s) (net.data t) :=
  joined_depends h.2 hs.1 ((step_iff_joined h s t).1 hs)

theorem walk_map {α β : Type} {R : α → α → Prop} {S : β → β → Prop} {f : α → β}
    (hf : ∀ a b, R a b → S (f a) (f b)) : ∀ {l : List α}, Walk R l → Walk S (l.map f)
  | [], _ => trivial
  | [_], _ => trivial
  | _ :: _ :: _, h => ⟨hf _ _ h.1, walk_map hf h.2⟩

theorem reach_map {α β : Type} {R : α → α → Prop} {S : β → β → Prop} {f : α → β}
    (hf : ∀ a b, R a b → S (f a) (f b)) {a b : α} (h : Reach R a b) : Reach S (f a) (f b) := by
  induction h with
  | refl => exact .refl
  | tail _ h ih => exact ih.tail (hf _ _ h)

theorem comb_depends {E : TravEnv} {es : List Event} {G : Grain} {net : NetGraph}
    (h : Reachable net ∧ Sound E es G net) {s t : Nat} (hs : CombStep net s t) :
    CombDepends E es G (net.data s) (net.data t) := ⟨step_depends h hs.1, hs.2⟩

/-! ### The queries -/

/-- C67, paths: the path query does not fail; what it returns is a chain of dependences of the design
from `s` to `t`; if it returns nothing, the netlist has no path. -/
theorem path_answers {E : TravEnv} {boxed : Str → Str → Bool} {ord : Tracker → List (Nat × Nat)}
    {top : List Member} (h : Elaborated E boxed top) (hv : Visits ord) {net : NetGraph}
    (hn : netlist E ord top = .ok net) {s t : Nat} (hs : s ∈ net.g.nodes) (hne : s ≠ t) :
    ∃ p, findPath net s t = some p ∧
      (p ≠ [] → p.head? = some s ∧ p.getLast? = some t ∧
        Walk (Depends E (eventsAll boxed E.opts.propCuts top) bySignal) (p.map net.data)) ∧
      (p = [] → ¬ Reach (Joined net) s t) := by
  have hj := edges_justified h hv hn
  obtain ⟨p, h1, h2, h3⟩ := path_sound_complete net hj.1 s t hs hne
  refine ⟨p, h1, fun hp => ?_, fun hp hr => h3.2 (reach_map (f := id) (fun a b => (step_iff_joined hj a b).2) hr) hp⟩
  obtain ⟨g1, g2, g3, _⟩ := h2 hp
  exact ⟨g1, g2, walk_map (f := net.data) (fun a b => step_depends hj) g3⟩

/-- C67, combinational paths: the same, and the chain enters no register. -/
theorem comb_path_answers {E : TravEnv} {boxed : Str → Str → Bool} {ord : Tracker → List (Nat × Nat)}
    {top : List Member} (h : Elaborated E boxed top) (hv : Visits ord) {net : NetGraph}
    (hn : netlist E ord top = .ok net) {s t : Nat} (hs : s ∈ net.g.nodes) (hne : s ≠ t) :
    ∃ p, findComb net s t = some p ∧
      (p ≠ [] → p.head? = some s ∧ p.getLast? = some t ∧
        Walk (CombDepends E (eventsAll boxed E.opts.propCuts top) bySignal) (p.map net.data)) ∧
      (p = [] → ¬ Reach (CombStep net) s t) := by
  have hj := edges_justified h hv hn
  obtain ⟨p, h1, h2, h3⟩ := comb_path_sound_complete net hj.1 s t hs hne
  refine ⟨p, h1, fun hp => ?_, fun hp hr => h3.2 hr hp⟩
  obtain ⟨⟨g1, g2, g3, _⟩, _⟩ := h2 hp
  exact ⟨g1, g2, walk_map (f := net.data) (fun a b => comb_depends hj) g3⟩

/-- C67, paths that are found: if what a block leaves in a bit is read, across any number of output
and input ports, by another block of the design (see `hierarchy_path_partial`), the path query
returns a path between the two. Missing: dependences outside the hypotheses of C64, for example over
registers, modports and continuous connections with casts. -/
theorem path_found_partial {E : TravEnv} {boxed : Str → Str → Bool} {ord : Tracker → List (Nat × Nat)}
    {top : List Member} (h : Buildable E boxed ord top) {c : Col} {net : NetGraph} (hc : phase1 E top = .ok c)
    (hn : netlist E ord top = .ok net) {b1 b2 : Deferred}
    (hb1 : b1 ∈ blocksOf (eventsAll boxed E.opts.propCuts top))
    (hb2 : b2 ∈ blocksOf (eventsAll boxed E.opts.propCuts top)) {x j : Nat} {loc : TextLoc}
    (hl : Leaves b1.stmt x j loc) {y q : Nat}
    (hup : Arrives E (eventsAll boxed E.opts.propCuts top) c.cuts b1 x j y q) {z i : Nat}
    (hdown : Down E (eventsAll boxed E.opts.propCuts top) y q z i) {who : NodeData} {r : Ref} {Q : List Wr → Prop}
    (huse : Use Start b2.stmt who r Q) (hq : ∃ tr, Q tr) (hf : ReadFits (allWrites b2.stmt) r.sym r.bounds)
    (hr : r.sym = z) (hin : InRng r.bounds i) (hno : ∀ tr, Q tr → ∀ w ∈ tr, ¬ Hits true z i w)
    (hk : E.D.kind z ≠ .modportPort) (hz : Bare (eventsAll boxed E.opts.propCuts top) z)
    (hw : who ≠ .assignment loc) :
    ∃ s ∈ net.g.nodes, ∃ t ∈ net.g.nodes, net.data s = .assignment loc ∧ net.data t = who ∧
      ∃ p, findPath net s t = some p ∧ p ≠ [] := by
  obtain ⟨s, h1, t, h2, h3, h4, h5⟩ := hierarchy_path_partial h hc hn hb1 hb2 hl hup hdown huse hq hf hr hin hno hk hz
  obtain ⟨p, g1, _, g3⟩ := path_answers h.design h.visits hn h1 (t := t)
    (fun e => hw (by rw [← h4, ← e, h3]))
  exact ⟨s, h1, t, h2, h3, h4, p, g1, fun hp => g3 hp h5⟩

/-- C67, loops: every reported loop is a cycle of dependences of the design that contains no
register. -/
theorem loop_answers {E : TravEnv} {boxed : Str → Str → Bool} {ord : Tracker → List (Nat × Nat)}
    {top : List Member} (h : Elaborated E boxed top) (hv : Visits ord) {net : NetGraph}
    (hn : netlist E ord top = .ok net) : ∀ c ∈ combLoops net, c ≠ [] ∧
      (∀ x ∈ c, (net.data x).kind ≠ .state) ∧
      Walk (CombDepends E (eventsAll boxed E.opts.propCuts top) bySignal) (c.map net.data) ∧
      ∀ a b, c.head? = some a → c.getLast? = some b →
        CombDepends E (eventsAll boxed E.opts.propCuts top) bySignal (net.data b) (net.data a) := by
  have hj := edges_justified h hv hn
  intro c hc
  obtain ⟨⟨g1, g2, g3, _⟩, g4, _⟩ := loops_are_genuine net hj.1 c hc
  exact ⟨g1, fun x hx => (g4 x hx).2, walk_map (f := net.data) (fun a b => comb_depends hj) g2,
    fun a b ha hb => comb_depends hj (g3 a b ha hb)⟩

theorem walk_reach {α : Type} {R : α → α → Prop} : ∀ {l : List α} {a b : α}, Walk R l → l.head? = some a →
    l.getLast? = some b → Reach R a b
  | [], _, _, _, h, _ => nomatch h
  | [x], a, b, _, h1, h2 => by cases h1; cases h2; exact .refl
  | x :: y :: l, a, b, hw, h1, h2 => by
    cases h1
    exact reach_trans (Reach.refl.tail hw.1) (walk_reach hw.2 rfl (by simpa using h2))

/-- C67, no false alarm: a design without a cycle of combinational dependences has no reported
loop. -/
theorem no_cycle_no_loop {E : TravEnv} {boxed : Str → Str → Bool} {ord : Tracker → List (Nat × Nat)}
    {top : List Member} (h : Elaborated E boxed top) (hv : Visits ord) {net : NetGraph}
    (hn : netlist E ord top = .ok net)
    (ha : ∀ d, ¬ OnCycle (CombDepends E (eventsAll boxed E.opts.propCuts top) bySignal) d) :
    combLoops net = [] := by
  refine List.eq_nil_iff_forall_not_mem.2 fun c hc => ?_
  obtain ⟨g1, _, g3, g4⟩ := loop_answers h hv hn c hc
  obtain ⟨a, l, rfl⟩ := List.exists_cons_of_ne_nil g1
  refine ha (net.data a) ⟨net.data ((a :: l).getLast g1), walk_reach g3 rfl ?_, g4 _ _ rfl ?_⟩
  · rw [List.getLast?_map, List.getLast?_eq_some_getLast g1]; rfl
  · rw [List.getLast?_eq_some_getLast g1]

/-- C67, fan-out: what the query returns depends on the start over a chain of dependences of the
design that enters no register. -/
theorem fan_out_answers {E : TravEnv} {boxed : Str → Str → Bool} {ord : Tracker → List (Nat × Nat)}
    {top : List Member} (h : Elaborated E boxed top) (hv : Visits ord) {net : NetGraph}
    (hn : netlist E ord top = .ok net) {n : Nat} (hs : n ∈ net.g.nodes) : ∀ m ∈ combFanOut net n,
      Reach (CombDepends E (eventsAll boxed E.opts.propCuts top) bySignal) (net.data n) (net.data m) := by
  have hj := edges_justified h hv hn
  intro m hm
  exact reach_map (f := net.data) (fun a b => comb_depends hj) (((combFanOut_exact net hj.1 n hs).2 m).1 hm)

/-- C67, fan-in: the start depends on what the query returns over a chain of dependences of the design
that leaves no register. -/
theorem fan_in_answers {E : TravEnv} {boxed : Str → Str → Bool} {ord : Tracker → List (Nat × Nat)}
    {top : List Member} (h : Elaborated E boxed top) (hv : Visits ord) {net : NetGraph}
    (hn : netlist E ord top = .ok net) {n : Nat} (hs : n ∈ net.g.nodes) : ∀ m ∈ combFanIn net n,
      Reach (fun u v => Depends E (eventsAll boxed E.opts.propCuts top) bySignal u v ∧ u.kind ≠ .state)
        (net.data m) (net.data n) := by
  have hj := edges_justified h hv hn
  intro m hm
  exact reach_map (f := net.data) (fun a b h => ⟨step_depends hj h.1, h.2⟩) (((combFanIn_exact net hj.1 n hs).2 m).1 hm)

/-- C67, sensitivity of a register: every reported pair is a node that gives a signal its value and an
edge kind with which an event of a block with that register waits for the signal. -/
theorem register_sensitivity_answers {E : TravEnv} {boxed : Str → Str → Bool}
    {ord : Tracker → List (Nat × Nat)} {top : List Member} (h : Elaborated E boxed top) (hv : Visits ord)
    {net : NetGraph} (hn : netlist E ord top = .ok net) {n : Nat} (hk : net.kind n = .state) :
    ∀ s k, (s, k) ∈ sensitivity net n →
      Clocking E (eventsAll boxed E.opts.propCuts top) bySignal k (net.data s) (net.data n) := by
  have hj := edges_justified h hv hn
  intro s k hm
  obtain ⟨e, he, ht, _, h3, h4⟩ := ((sensitivity_of_register net hj.1 n hk).2 s k).1 hm
  have := (hj.2 s (joined_nodes hj.1 ⟨e, he, ht⟩).1 e he).2.1 (h3 ▸ h4)
  rw [h3, ht] at this
  exact this

/-- C67, sensitivity of any other node: every reported pair belongs in this way to a register that
depends on the node over a chain that enters no other register. -/
theorem comb_sensitivity_answers {E : TravEnv} {boxed : Str → Str → Bool}
    {ord : Tracker → List (Nat × Nat)} {top : List Member} (h : Elaborated E boxed top) (hv : Visits ord)
    {net : NetGraph} (hn : netlist E ord top = .ok net) {n : Nat} (hs : n ∈ net.g.nodes)
    (hk : net.kind n ≠ .state) : ∀ s k, (s, k) ∈ sensitivity net n →
      ∃ r m, r.kind = .state ∧
        Reach (CombDepends E (eventsAll boxed E.opts.propCuts top) bySignal) (net.data n) m ∧
        Depends E (eventsAll boxed E.opts.propCuts top) bySignal m r ∧
        Clocking E (eventsAll boxed E.opts.propCuts top) bySignal k (net.data s) r := by
  have hj := edges_justified h hv hn
  intro s k hm
  obtain ⟨r, ⟨g1, m, g2, g3⟩, e, he, ht, _, h3, h4⟩ := ((sensitivity_of_comb net hj.1 n hs hk).2 s k).1 hm
  refine ⟨net.data r, net.data m, g1, reach_map (f := net.data) (fun a b => comb_depends hj) g2, step_depends hj g3, ?_⟩
  have := (hj.2 s (joined_nodes hj.1 ⟨e, he, ht⟩).1 e he).2.1 (h3 ▸ h4)
  rw [h3, ht] at this
  exact this

/-! ### Concrete cases -/

/-- The design of Props/Traverse meets the hypotheses (see Props/Sound); the path from `a` to `z` goes
down through `m` and `l` and up again. -/
example : findPath hdNet 0 1 = some [0, 9, 2, 5, 10, 7, 4, 8, 1] ∧ findPath hdNet 1 0 = some [] ∧
    combFanOut hdNet 7 = [7, 4, 8, 1] ∧ combLoops hdNet = [] := by
  decide +kernel

/-- A module with the input `a` (signal 0, node 0) and two blocks. -/
def twoBlocks (b1 b2 : Deferred) : List Member :=
  [.inst false ['t'] ['t'] [.port (hdIn 20 0), .block b1, .block b2] []]

def twoNet (b1 b2 : Deferred) : NetGraph := (netlist hdE Tracker.slots (twoBlocks b1 b2)).toOption.getD {}

/-- `assign c = b; assign b = c;` -/
def loopB1 : Deferred := .continuous (ln 1) (.aligned [⟨[dsRef 2], [.lsp (dsRef 1)], ln 1⟩])
def loopB2 : Deferred := .continuous (ln 2) (.aligned [⟨[dsRef 1], [.lsp (dsRef 2)], ln 2⟩])

/-- `always_ff @(posedge a) b <= c;` -/
def ffB : Deferred := .procedural .alwaysFF (.timed (.signalEvent ⟨.posEdge, some 0⟩))
  (.assign (ln 3) false (.aligned [⟨[dsRef 1], [.lsp (dsRef 2)], ln 3⟩]))

theorem two_elab (b1 b2 : Deferred) : Elaborated hdE hdBoxed (twoBlocks b1 b2) where
  boxes := hd_elab.boxes
  ok := by
    simp [twoBlocks, eventsAll, events, hdBoxed, EventOk, hdIn, PortDriver.hi, hdE, hdD]
  once := by
    simp [twoBlocks, eventsAll, events, hdBoxed, declares, hdIn]

/-- The hypotheses of `loop_answers` are met with a loop: node 1 is line 1, node 2 is line 2. -/
example : Elaborated hdE hdBoxed (twoBlocks loopB1 loopB2) ∧ Visits Tracker.slots ∧
    netlist hdE Tracker.slots (twoBlocks loopB1 loopB2) = .ok (twoNet loopB1 loopB2) ∧
    combLoops (twoNet loopB1 loopB2) = [[1, 2]] ∧
    (twoNet loopB1 loopB2).data 1 = .assignment (ln 1) ∧ (twoNet loopB1 loopB2).data 2 = .assignment (ln 2) :=
  ⟨two_elab _ _, fun _ => List.Perm.refl _, rfl, by decide +kernel, by decide +kernel, by decide +kernel⟩

/-- The hypotheses of the sensitivity theorems are met with a register: node 0 is `a`, node 1 line 1,
node 2 line 3 and node 3 the register `b`. Line 3 feeds the register, line 1 feeds line 3; both and
the register wait for the positive edge of `a`. -/
example : Elaborated hdE hdBoxed (twoBlocks loopB1 ffB) ∧ Visits Tracker.slots ∧
    netlist hdE Tracker.slots (twoBlocks loopB1 ffB) = .ok (twoNet loopB1 ffB) ∧
    (twoNet loopB1 ffB).kind 3 = .state ∧ sensitivity (twoNet loopB1 ffB) 3 = [(0, .posEdge)] ∧
    sensitivity (twoNet loopB1 ffB) 1 = [(0, .posEdge)] :=
  ⟨two_elab _ _, fun _ => List.Perm.refl _, rfl, by decide +kernel, by decide +kernel, by decide +kernel⟩

/-- `assign c = a; assign b = c;` -/
def lineB : Deferred := .continuous (ln 4) (.aligned [⟨[dsRef 2], [.lsp (dsRef 0)], ln 4⟩])

theorem line_depends {u v : NodeData}
    (h : Depends hdE (eventsAll hdBoxed hdE.opts.propCuts (twoBlocks lineB loopB2)) bySignal u v) :
    (v = .assignment (ln 4) ∧ u.kind = .port) ∨ (v = .assignment (ln 2) ∧ u = .assignment (ln 4)) := by
  have hev : eventsAll hdBoxed hdE.opts.propCuts (twoBlocks lineB loopB2) =
      [.port (hdIn 20 0), .block lineB, .block loopB2] := by
    simp [twoBlocks, eventsAll, events, hdBoxed]
  rw [hev] at h
  generalize hes : [Event.port (hdIn 20 0), .block lineB, .block loopB2] = es at h
  have hbl : ∀ {b}, b ∈ blocksOf es → b = lineB ∨ b = loopB2 := by
    subst hes; intro b hb; simpa [blocksOf] using hb
  have hcon : ∀ {k}, .connect k ∈ es → False := by
    subst hes; intro k hk; simp at hk
  have hreg : ∀ {b}, b ∈ blocksOf es → ¬ Registers b := by
    rintro b hb ⟨⟨⟨v, hv, _⟩, _⟩, _⟩
    rcases hbl hb with rfl | rfl <;> cases hv
  have hst : ∀ {y d}, Stands hdE es bySignal y d → y = 20 ∧ d.kind = .port := by
    rintro y d (⟨h1, h2, h3⟩ | ⟨h1, h2⟩)
    · subst hes
      simp at h1
      rcases h1 with rfl | rfl | rfl
      · obtain ⟨_, _, _, _, _, rfl⟩ := h3
        exact ⟨by simpa [declares, hdIn] using h2, rfl⟩
      · cases h2
      · cases h2
    · cases h2 with
      | mk h => exact absurd h (hreg h1)
  have hfin : ∀ {b y p loc}, b ∈ blocksOf es → bySignal.final b.stmt y p loc →
      (y = 2 ∧ loc = ln 4) ∨ (y = 1 ∧ loc = ln 2) := by
    rintro b y p loc hb ⟨w, h1, h2, h3⟩
    rcases hbl hb with rfl | rfl
    · cases List.mem_singleton.1 h1; exact .inl ⟨h2.symm, h3.symm⟩
    · cases List.mem_singleton.1 h1; exact .inr ⟨h2.symm, h3.symm⟩
  have hrd : ∀ {b d r Q}, b ∈ blocksOf es → ReadsIn b.stmt d r Q →
      (r.sym = 0 ∧ d = .assignment (ln 4) ∧ ∀ w, Q w → w.sym = 2) ∨
      (r.sym = 2 ∧ d = .assignment (ln 2) ∧ ∀ w, Q w → w.sym = 1) := by
    intro b d r Q hb hr
    rcases hbl hb with rfl | rfl
    · cases hr with
      | seg h1 h2 h3 =>
        obtain ⟨rfl, rfl, rfl⟩ := single_split h1
        cases List.mem_singleton.1 h2
        cases h3
        refine .inl ⟨rfl, rfl, fun w hw => ?_⟩
        rcases hw with hw | hw
        · exact hw.elim
        · cases List.mem_singleton.1 hw; rfl
    · cases hr with
      | seg h1 h2 h3 =>
        obtain ⟨rfl, rfl, rfl⟩ := single_split h1
        cases List.mem_singleton.1 h2
        cases h3
        refine .inr ⟨rfl, rfl, fun w hw => ?_⟩
        rcases hw with hw | hw
        · exact hw.elim
        · cases List.mem_singleton.1 hw; rfl
  rcases h with h | ⟨path, i, h⟩
  · cases h with
    | literal h1 h2 =>
      rcases hbl h1 with rfl | rfl <;> cases h2 with
        | seg h3 h4 => cases List.mem_singleton.1 h3; cases List.mem_singleton.1 h4
    | tied h1 => exact (hcon h1).elim
    | control h1 h2 =>
      rcases hbl h1 with rfl | rfl <;> cases h2 with
        | assign _ h => exact h.elim
  · cases h with
    | inside h1 h2 h3 _ h4 =>
      rcases hrd h1 h2 with ⟨g1, _, g3⟩ | ⟨g1, _, g3⟩
      · have := g3 _ h3; omega
      · have := g3 _ h3; omega
    | between _ h1 h2 =>
      rename_i y _
      have hw : (y = 0 ∧ v = .assignment (ln 4)) ∨ (y = 2 ∧ v = .assignment (ln 2)) := by
        cases h2 with
        | read g1 g2 g3 =>
          subst g3
          exact (hrd g1 g2).imp (fun h => ⟨h.1, h.2.1⟩) (fun h => ⟨h.1, h.2.1⟩)
        | input g => exact (hcon g).elim
        | clock g1 g2 => cases g2 with | mk g => exact absurd g (hreg g1)
      have ho : (y = 2 ∧ u = .assignment (ln 4)) ∨ y = 1 ∨ y = 20 ∨ (y = 0 ∧ u.kind = .port) := by
        cases h1 with
        | assign g1 _ g3 =>
          rcases hfin g1 g3 with ⟨rfl, rfl⟩ | ⟨rfl, _⟩
          · exact .inl ⟨rfl, rfl⟩
          · exact .inr (.inl rfl)
        | node g => exact .inr (.inr (.inl (hst g.1).1))
        | input g1 g2 =>
          subst hes
          simp at g1
          subst g1
          cases g2
          exact .inr (.inr (.inr ⟨rfl, rfl⟩))
        | output g => exact (hcon g).elim
        | modport g => simp [hdE, hdD] at g
      rcases hw with ⟨rfl, hv⟩ | ⟨rfl, hv⟩
      · rcases ho with ⟨h, _⟩ | h | h | ⟨_, h⟩
        · omega
        · omega
        · omega
        · exact .inl ⟨hv, h⟩
      · rcases ho with ⟨_, h⟩ | h | h | ⟨h, _⟩
        · exact .inr ⟨hv, h⟩
        · omega
        · omega
        · omega
    | outward _ h1 h2 h3 =>
      obtain ⟨rfl, _⟩ := hst h3.1
      cases h1 with
      | assign g1 _ g3 => rcases hfin g1 g3 with ⟨rfl, rfl⟩ | ⟨rfl, _⟩ <;> simp [hdE, hdD] at h2
      | register g1 g2 => cases g2 with | mk g => exact absurd g (hreg g1)
      | output g => exact (hcon g).elim
    | store g1 _ _ g2 => cases g2 with | mk g => exact absurd g (hreg g1)
    | «variable» _ _ g => simp [hdE, hdD] at g
    | modport _ _ g => simp [hdE, hdD] at g

/-- The hypotheses of `no_cycle_no_loop` are met by `assign c = a; assign b = c;`, for every order in
which the tables are visited. -/
example {ord : Tracker → List (Nat × Nat)} (hv : Visits ord) {net : NetGraph}
    (hn : netlist hdE ord (twoBlocks lineB loopB2) = .ok net) : combLoops net = [] := by
  refine no_cycle_no_loop (two_elab _ _) hv hn fun d ⟨u, h1, h2⟩ => ?_
  have key : ∀ {a b}, Reach (CombDepends hdE (eventsAll hdBoxed hdE.opts.propCuts (twoBlocks lineB loopB2)) bySignal) a b →
      a = b ∨ b = .assignment (ln 2) ∨ (b = .assignment (ln 4) ∧ a.kind = .port) := by
    intro a b h
    induction h with
    | refl => exact .inl rfl
    | tail _ hs ih =>
      rcases line_depends hs.1 with ⟨rfl, h⟩ | ⟨rfl, rfl⟩
      · rcases ih with rfl | rfl | ⟨rfl, _⟩
        · exact .inr (.inr ⟨rfl, h⟩)
        · cases h
        · cases h
      · exact .inr (.inl rfl)
  rcases line_depends h2.1 with ⟨rfl, h⟩ | ⟨rfl, rfl⟩
  · rcases key h1 with rfl | rfl | ⟨rfl, _⟩ <;> cases h
  · rcases key h1 with h | h | ⟨_, h⟩
    · exact absurd h (by decide)
    · exact absurd h (by decide)
    · cases h

end Verif.Props

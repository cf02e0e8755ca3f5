import Verif.Proofs.Build
import Verif.Props.Dataflow

/-! C62: data dependences between the blocks of a design are edges of the built graph. -/
namespace Verif.Props
open Verif.Model Verif.Spec Verif.Proofs

theorem prepared_inv {s : Bld} {hist : List (Nat × Rec)} {bs : List Deferred}
    {ord : Tracker → List (Nat × Nat)} (h : Prepared s hist bs ord) : BInv (designWrites hist bs) s :=
  started_inv h.plain h.start fun w hw => List.mem_append_left _ hw

theorem prepared_blocks {s : Bld} {hist : List (Nat × Rec)} {bs : List Deferred}
    {ord : Tracker → List (Nat × Nat)} (h : Prepared s hist bs ord) : ∀ b ∈ bs,
    (∀ w ∈ allWrites b.stmt, w ∈ designWrites hist bs) ∧ live b.stmt = true ∧ PlainEvents b :=
  fun b hb => ⟨fun w hw => List.mem_append_right _ (List.mem_flatMap.2 ⟨b, hb, hw⟩), h.live b hb,
    h.events b hb⟩

theorem prepared_run {s : Bld} {hist : List (Nat × Rec)} {bs : List Deferred}
    {ord : Tracker → List (Nat × Nat)} (D : Design) (h : Prepared s hist bs ord) :
    ∃ s', s.runBlocks D ord bs = .ok s' ∧ Done D (designWrites hist bs) bs s s' :=
  blocks_ok h.plain D h.visits bs (prepared_inv h) (prepared_blocks h)

/-- C62, the design's driver table. No block faults, the graph and tables stay consistent, no driver
recorded in Phase 1 is lost, every other driver is an assignment, and the assignments recorded for a
bit are those of Phase 1 and those that can leave it its value at the end of a block that is not
edge-triggered. -/
theorem design_drivers_partial {s : Bld} {hist : List (Nat × Rec)} {bs : List Deferred}
    {ord : Tracker → List (Nat × Nat)} (D : Design) (h : Prepared s hist bs ord) :
    ∃ s', s.runBlocks D ord bs = .ok s' ∧ BldOk s' ∧
      (∀ sym p d, Drives s.trk s.drv sym p d → Drives s'.trk s'.drv sym p d) ∧
      (∀ sym p d, Drives s'.trk s'.drv sym p d →
        Drives s.trk s.drv sym p d ∨ ∃ loc, IsAssign s'.net d loc) ∧
      ∀ sym p loc, (∃ d, Drives s'.trk s'.drv sym p d ∧ IsAssign s'.net d loc) ↔
        (∃ d, Drives s.trk s.drv sym p d ∧ IsAssign s.net d loc) ∨
        ∃ b ∈ bs, ¬ Clocked b ∧ Leaves b.stmt sym p loc := by
  obtain ⟨s', h1, h2⟩ := prepared_run D h
  have hi := prepared_inv h
  refine ⟨s', h1, h2.inv.ok, ?_, ?_, ?_⟩
  · intro sym p d hd
    rw [drives_iff hi.trk hi.drv] at hd
    rw [drives_iff h2.inv.trk h2.inv.drv]
    exact h2.keep sym p d hd
  · intro sym p d hd
    rw [drives_iff h2.inv.trk h2.inv.drv] at hd
    rw [drives_iff hi.trk hi.drv]
    exact h2.gain sym p d hd
  · intro sym p loc
    simp only [drives_iff hi.trk hi.drv, drives_iff h2.inv.trk h2.inv.drv]
    exact h2.defs sym p loc

theorem noNode_lookup {D : Design} {W : List Wr} {s s' : Bld} {bs : List Deferred}
    (h : Done D W bs s s') {sym : Nat} (hn : NoNode s bs sym) (b : BitRange) :
    s'.vars.lookup sym b = none := by
  cases hl : s'.vars.lookup sym b with
  | none => rfl
  | some v =>
    obtain ⟨e, he, _⟩ := varLookup_mem hl
    rcases h.vars sym e he with he | ⟨b, hb, hc, w, hw, hs⟩
    · rw [hn.1] at he; cases he
    · exact absurd hs (hn.2 b hb hc w hw)

/-- C62, reads. After the build every read in every block has a node of the assignment or
conditional it belongs to, and for every bit of the read: that node is entered from each assignment
of the block whose write of the bit is the last before the read on some path; and, if no path to the
read writes the bit, from each assignment that can leave the bit its value at the end of a block that
is not edge-triggered, and from each driver recorded in Phase 1. The second half is for signals that
are not modport ports and have no node of their own. -/
theorem block_to_block_partial {s : Bld} {hist : List (Nat × Rec)} {bs : List Deferred}
    {ord : Tracker → List (Nat × Nat)} (D : Design) (h : Prepared s hist bs ord) :
    ∃ net, s.build D ord bs = .ok net ∧
      ∀ b ∈ bs, ∀ who r Q, Use Start b.stmt who r Q → (∃ tr, Q tr) →
        ReadFits (allWrites b.stmt) r.sym r.bounds →
        ∃ n ∈ net.g.nodes, n ∉ s.net.g.nodes ∧ net.data n = who ∧ ∀ p, InRng r.bounds p →
          (∀ tr loc, Q tr → LastAt true tr r.sym p loc → FedBy net loc n) ∧
          ((∀ tr, Q tr → ∀ w ∈ tr, ¬ Hits true r.sym p w) → D.kind r.sym ≠ .modportPort →
            NoNode s bs r.sym →
            (∀ b1 ∈ bs, ¬ Clocked b1 → ∀ loc, Leaves b1.stmt r.sym p loc → FedBy net loc n) ∧
            ∀ k, Drives s.trk s.drv r.sym p (some k) → Joined net k n) := by
  obtain ⟨s', h1, h2⟩ := prepared_run D h
  have hi := prepared_inv h
  obtain ⟨net, k1, _, k3, k4⟩ := resolve_ok h2.inv D
  refine ⟨net, by simp only [Bld.build, h1, k1], ?_⟩
  intro b hb who r Q hu hq hf
  obtain ⟨n, g1, g2, g3, g4⟩ := h2.uses b hb who r Q hu hq hf
  refine ⟨n, k3.nodes n g1, g2, by rw [k3.data n g1, g3], fun p hp => ⟨?_, ?_⟩⟩
  · intro tr loc ht hl
    exact fedBy_mono k3 (g4.defs p tr loc hp ht hl)
  · intro hw hk hno
    obtain ⟨x, hx, e1, e2, _, e4⟩ := g4.queued hk p hp hw
    have hres := (k4 x hx n e2).2 (noNode_lookup h2 (by rw [e1]; exact hno) _)
    rw [e1] at hres
    refine ⟨fun b1 hb1 hc loc hl => ?_, fun k hd => ?_⟩
    · obtain ⟨d, hd, m, hm, rfl, hdat⟩ := (h2.defs r.sym p loc).2 (.inr ⟨b1, hb1, hc, hl⟩)
      exact ⟨m, k3.nodes m hm, by rw [k3.data m hm, hdat], hres p m e4 hd⟩
    · rw [drives_iff hi.trk hi.drv] at hd
      exact hres p k e4 (h2.keep _ _ _ hd)

/-- C62, the same edges when the pending reads are resolved by several threads, for every sorted
order, division into blocks and interleaving. -/
theorem parallel_build_same {s : Bld} {hist : List (Nat × Rec)} {bs : List Deferred}
    {ord : Tracker → List (Nat × Nat)} (D : Design) (h : Prepared s hist bs ord) {addr : Nat → Nat}
    (ha : ∀ a b, addr a = addr b → a = b) :
    ∃ s' net, s.runBlocks D ord bs = .ok s' ∧ s.build D ord bs = .ok net ∧
      ∀ net1, ResolvesParallel (s'.ctx D) addr s'.net s'.queue net1 →
        ∀ a t, Joined net1 a t ↔ Joined net a t := by
  obtain ⟨s', h1, h2⟩ := prepared_run D h
  obtain ⟨net, k1, _⟩ := resolve_ok h2.inv D
  refine ⟨s', net, h1, by simp only [Bld.build, h1, k1], fun net1 hn => ?_⟩
  obtain ⟨net2, g1, g2⟩ := parallel_joins_same ha h2.inv.ok.reach (resolvable h2.inv D) hn
  rw [k1] at g1; cases g1
  exact g2

/-- C62, registers. Every bit an edge-triggered block can assign is in a register of the signal that
is entered from the assignment; and if a signal of the block's event list has no node of its own, the
register is entered from every assignment that can leave a bit of that signal its value at the end of
a block that is not edge-triggered. -/
theorem design_registers_partial {s : Bld} {hist : List (Nat × Rec)} {bs : List Deferred}
    {ord : Tracker → List (Nat × Nat)} (D : Design) (h : Prepared s hist bs ord) :
    ∃ net, s.build D ord bs = .ok net ∧
      ∀ b ∈ bs, Clocked b → ∀ sym p loc, Leaves b.stmt sym p loc →
        ∃ st bd, st ∈ net.g.nodes ∧
          net.data st = .state (D.ref sym).name (D.ref sym).path (D.ref sym).loc bd ∧
          InRng bd p ∧ FedBy net loc st ∧
          ∀ v ∈ blockEvents b, ∀ g, v.signal = some g → NoNode s bs g →
            ∀ q, 0 ≤ q → q < D.width g → ∀ b1 ∈ bs, ¬ Clocked b1 → ∀ l, Leaves b1.stmt g q l →
              FedBy net l st := by
  obtain ⟨s', h1, h2⟩ := prepared_run D h
  obtain ⟨net, k1, _, k3, k4⟩ := resolve_ok h2.inv D
  refine ⟨net, by simp only [Bld.build, h1, k1], ?_⟩
  intro b hb hc sym p loc hl
  obtain ⟨st, bd, k, g1, g2, g3, g4, g5, g6, _, _, _, g7⟩ := h2.regs b hb hc sym p loc hl
  refine ⟨st, bd, k3.nodes st g1, by rw [k3.data st g1, g2], g3, fedBy_mono k3 ⟨k, g4, g5, g6⟩, ?_⟩
  intro v hv g hg hno q hq1 hq2 b1 hb1 hc1 l hl1
  have hw : D.width g ≠ 0 := by omega
  have hres := (k4 _ (g7 v hv g hg hw) st rfl).2 (noNode_lookup h2 hno _)
  obtain ⟨d, hd, m, hm, rfl, hdat⟩ := (h2.defs g q l).2 (.inr ⟨b1, hb1, hc1, hl1⟩)
  refine ⟨m, k3.nodes m hm, by rw [k3.data m hm, hdat], hres q m ?_ hd⟩
  rw [inRng_iff]
  simp only [BitRange.lower, BitRange.upper]
  omega

/-- The ranges that only whole writes fit. -/
theorem whole_range {W : List Wr} {sym : Nat} {bd : BitRange} (hw : ∀ w ∈ W, w.sym = sym → w.bounds = bd)
    (hbd : bd.left ≤ bd.right) {bd' : BitRange} (hle : bd'.left ≤ bd'.right) (hf : Fits W sym bd'.lower bd'.upper) :
    bd' = bd := by
  obtain ⟨⟨w, hw', hsy, l1, l2⟩, ⟨v, hv', hsv, l3⟩, ⟨u, hu', hsu, l4⟩⟩ := hf
  rw [hw w hw' hsy] at l1 l2
  rw [hw v hv' hsv] at l3
  rw [hw u hu' hsu] at l4
  simp only [BitRange.lower, BitRange.upper] at l1 l2 l3 l4
  have e1 : bd'.left = bd.left := by omega
  have e2 : bd'.right = bd.right := by omega
  cases bd'; cases bd; simp_all

/-- After the blocks, the signal of `register_to_block_partial` has one node for `bd`. -/
theorem register_entry {s : Bld} {hist : List (Nat × Rec)} {pre post : List Deferred}
    {b1 : Deferred} {ord : Tracker → List (Nat × Nat)} (D : Design)
    (h : Prepared s hist (pre ++ b1 :: post) ord) {sym : Nat} {bd : BitRange} (hbd : bd.left ≤ bd.right)
    (hs : s.vars sym = [])
    (ho : ∀ b ∈ pre ++ post, Clocked b → ∀ w ∈ allWrites b.stmt, w.sym ≠ sym) (hc : Clocked b1)
    (hw : ∀ w ∈ allWrites b1.stmt, w.sym = sym → w.bounds = bd)
    {p0 : Int} {loc0 : TextLoc} (hl0 : Leaves b1.stmt sym p0 loc0) {s3 : Bld}
    (hrun : s.runBlocks D ord (pre ++ b1 :: post) = .ok s3) :
    ∃ st, s3.vars.lookup sym bd = some st ∧ ∀ v, ⟨bd.left, bd.right, v⟩ ∈ s3.vars sym ↔ v = st := by
  have hi := prepared_inv h
  have hbl := prepared_blocks h
  obtain ⟨s1, a1, a2⟩ := blocks_ok h.plain D h.visits pre hi
    (fun b hb => hbl b (List.mem_append_left _ hb))
  obtain ⟨c1, c2, c3⟩ := hbl b1 (by simp)
  obtain ⟨s2, b1', b2, b3⟩ := block_ok h.plain a2.inv D h.visits c1 c2 c3
  obtain ⟨s3', d1, d2⟩ := blocks_ok h.plain D h.visits post b2.inv
    (fun b hb => hbl b (by simp [hb]))
  have hrun' : s.runBlocks D ord (pre ++ b1 :: post) = .ok s3' := by
    have happ : ∀ (l1 l2 : List Deferred) (s s1 : Bld), s.runBlocks D ord l1 = .ok s1 →
        s.runBlocks D ord (l1 ++ l2) = s1.runBlocks D ord l2 := by
      intro l1
      induction l1 with
      | nil => intro l2 s s1 h; simp only [Bld.runBlocks, Except.ok.injEq] at h; subst h; rfl
      | cons x xs ih =>
        intro l2 s s1 h
        simp only [List.cons_append, Bld.runBlocks] at h ⊢
        split at h
        · cases h
        · exact ih l2 _ _ h
    rw [happ pre _ s s1 a1]
    simp only [Bld.runBlocks, b1', d1]
  rw [hrun] at hrun'
  cases hrun'
  have hall : Done D (designWrites hist (pre ++ b1 :: post)) (pre ++ b1 :: post) s s3 := by
    obtain ⟨s3', e1, e2⟩ := prepared_run D h
    rw [hrun] at e1; cases e1
    exact e2
  have hv1 : s1.vars sym = [] := by
    cases he : s1.vars sym with
    | nil => rfl
    | cons e es =>
      rcases a2.vars sym e (by rw [he]; exact List.mem_cons_self) with h' | ⟨b, hb, hc', w, hw', hsy⟩
      · rw [hs] at h'; cases h'
      · exact absurd hsy (ho b (List.mem_append_left _ hb) hc' w hw')
  have hv3 : ∀ e, e ∈ s3.vars sym ↔ e ∈ s2.vars sym := by
    intro e
    refine ⟨fun he => ?_, d2.old sym e⟩
    rcases d2.vars sym e he with h' | ⟨b, hb, hc', w, hw', hsy⟩
    · exact h'
    · exact absurd hsy (ho b (List.mem_append_right _ hb) hc' w hw')
  have hreg : ∀ p loc, Leaves b1.stmt sym p loc → ∃ st k, st ∈ s3.net.g.nodes ∧
      s3.net.data st = .state (D.ref sym).name (D.ref sym).path (D.ref sym).loc bd ∧
      k ∈ s3.net.g.nodes ∧ s3.net.data k = .assignment loc ∧ Joined s3.net k st ∧
      ⟨bd.left, bd.right, st⟩ ∈ s3.vars sym := by
    intro p loc hl
    obtain ⟨st, bd', k, g1, g2, _, g4, g5, g6, g7, g8, g9, _⟩ :=
      hall.regs b1 (by simp) hc sym p loc hl
    have := whole_range hw hbd g8 g9
    subst this
    exact ⟨st, k, g1, g2, g4, g5, g6, g7⟩
  have huniq : ∀ v v', (⟨bd.left, bd.right, v⟩ : Ivl Nat) ∈ s3.vars sym →
      (⟨bd.left, bd.right, v'⟩ : Ivl Nat) ∈ s3.vars sym → v = v' := by
    intro v v' h1 h2
    have := b3 sym hv1 _ ((hv3 _).1 h1) _ ((hv3 _).1 h2) rfl rfl
    injection this
  obtain ⟨st, _, g1, g2, _, _, _, g6⟩ := hreg p0 loc0 hl0
  have hst : s3.vars.lookup sym bd = some st := by
    have hex : ∃ v, s3.vars.lookup sym bd = some v := by
      cases hl : s3.vars.lookup sym bd with
      | some v => exact ⟨v, rfl⟩
      | none =>
        exfalso
        unfold VarTab.lookup at hl
        rw [Option.map_eq_none_iff, List.find?_eq_none] at hl
        have q1 : bd.lower = bd.left := by simp only [BitRange.lower]; omega
        have q2 : bd.upper = bd.right := by simp only [BitRange.upper]; omega
        refine hl _ (List.mem_filter.2 ⟨g6, ?_⟩) ?_
        · rw [q1, q2]; simp [Ivl.hits]; omega
        · simp
    obtain ⟨v, hv⟩ := hex
    obtain ⟨e, he, q1, q2⟩ := varLookup_mem hv
    have : e = ⟨bd.left, bd.right, v⟩ := by
      cases e; simp only at q1 q2; subst q1; subst q2; rfl
    subst this
    rw [hv, huniq _ _ he g6]
  exact ⟨st, hst, fun v => ⟨fun hv => huniq _ _ hv g6, fun hv => hv ▸ g6⟩⟩

/-- C62, reads of registers. The signal `sym` has no node at the end of Phase 1 and is written by one
edge-triggered block only, which always assigns all of `bd`. Then there is one register for it,
entered from every assignment that can give a bit its value, and every read of `bd` is entered from the
register, in its own block too, unless a blocking assignment has written some of it before, and so is every
node for which Phase 1 has postponed a read of `bd`. -/
theorem register_to_block_partial {s : Bld} {hist : List (Nat × Rec)} {pre post : List Deferred}
    {b1 : Deferred} {ord : Tracker → List (Nat × Nat)} (D : Design)
    (h : Prepared s hist (pre ++ b1 :: post) ord) {sym : Nat} {bd : BitRange} (hbd : bd.left ≤ bd.right)
    (hs : s.vars sym = [])
    (ho : ∀ b ∈ pre ++ post, Clocked b → ∀ w ∈ allWrites b.stmt, w.sym ≠ sym) (hc : Clocked b1)
    (hw : ∀ w ∈ allWrites b1.stmt, w.sym = sym → w.bounds = bd)
    {p0 : Int} {loc0 : TextLoc} (hl0 : Leaves b1.stmt sym p0 loc0) :
    ∃ net st, s.build D ord (pre ++ b1 :: post) = .ok net ∧ st ∈ net.g.nodes ∧
      net.data st = .state (D.ref sym).name (D.ref sym).path (D.ref sym).loc bd ∧
      (∀ p loc, Leaves b1.stmt sym p loc → FedBy net loc st) ∧
      (∀ n g, (⟨sym, bd, some n, g⟩ : Pending) ∈ s.queue → Joined net st n) ∧
      ∀ b ∈ pre ++ b1 :: post, ∀ who r Q, Use Start b.stmt who r Q → (∃ tr, Q tr) → r.sym = sym →
        r.bounds = bd → D.kind sym ≠ .modportPort → ReadFits (allWrites b.stmt) sym bd →
        (∀ p, InRng bd p → ∀ tr, Q tr → ∀ w ∈ tr, ¬ Hits true sym p w) →
        ∃ n ∈ net.g.nodes, net.data n = who ∧ Joined net st n := by
  obtain ⟨s3, hrun, hall⟩ := prepared_run D h
  have hreg : ∀ p loc, Leaves b1.stmt sym p loc → ∃ st k, st ∈ s3.net.g.nodes ∧
      s3.net.data st = .state (D.ref sym).name (D.ref sym).path (D.ref sym).loc bd ∧
      k ∈ s3.net.g.nodes ∧ s3.net.data k = .assignment loc ∧ Joined s3.net k st ∧
      ⟨bd.left, bd.right, st⟩ ∈ s3.vars sym := by
    intro p loc hl
    obtain ⟨st, bd', k, g1, g2, _, g4, g5, g6, g7, g8, g9, _⟩ :=
      hall.regs b1 (by simp) hc sym p loc hl
    have := whole_range hw hbd g8 g9
    subst this
    exact ⟨st, k, g1, g2, g4, g5, g6, g7⟩
  obtain ⟨net, k1, _, k3, k4⟩ := resolve_ok hall.inv D
  obtain ⟨st', hst, hone⟩ := register_entry D h hbd hs ho hc hw hl0 hrun
  obtain ⟨st, _, g1, g2, _, _, _, g6⟩ := hreg p0 loc0 hl0
  have := (hone _).1 g6
  subst this
  refine ⟨net, st, by simp only [Bld.build, hrun, k1], k3.nodes st g1, by rw [k3.data st g1, g2], ?_, ?_, ?_⟩
  · intro p loc hl
    obtain ⟨st', k, _, _, e3, e4, e5, e6⟩ := hreg p loc hl
    have := (hone _).1 e6
    subst this
    exact fedBy_mono k3 ⟨k, e3, e4, e5⟩
  · intro n g hn
    obtain ⟨q, hq⟩ := hall.queue
    exact (k4 _ (by rw [hq]; exact List.mem_append_left _ hn) n rfl).1 st hst
  · intro b hb who r Q hu hq hrs hrb hk hfit hno
    subst hrs
    rw [← hrb] at hfit
    obtain ⟨n, e1, _, e3, e4⟩ := hall.uses b hb who r Q hu hq hfit
    refine ⟨n, k3.nodes n e1, by rw [k3.data n e1, e3], ?_⟩
    have hq := e4.whole hk (by rw [hrb]; exact hbd) (by rw [hrb]; exact hno)
    rw [hrb] at hq
    exact (k4 _ hq n rfl).1 st hst

/-! ### A concrete design

`a` (signal 0) is an input port driven by node 0. The blocks are
`assign b = a;` `always_comb if (b) c = b; else c = a;` `always_ff @(posedge b) q <= c;`
`assign d = q;`. -/

def dsCall : NetOp := .addNode (.port ['a'] ['a'] {} .input ⟨0, 7⟩)

def dsNet : NetGraph := (NetGraph.calls {} [dsCall]).getD {}

def dsHist : List (Nat × Rec) := [(0, ⟨⟨0, 7⟩, [⟨some 0, 0⟩], false⟩)]

def dsTrk : Tracker × List DMap := ((({} : Tracker).run [] dsHist).toOption).getD ({}, [])

def dsBld : Bld := { net := dsNet, trk := dsTrk.1, drv := dsTrk.2 }

/-- All eight bits of a signal. -/
def dsRef (y : Nat) : Ref := ⟨y, ⟨0, 7⟩, 0, false⟩

def dsB : Deferred := .continuous (ln 1) (.aligned [⟨[dsRef 1], [.lsp (dsRef 0)], ln 1⟩])
def dsC : Deferred := .procedural .alwaysComb .other (.seq (.branch false (ln 2)) (.seq
  (.reads [dsRef 1]) (.choose true
    (.assign (ln 3) true (.aligned [⟨[dsRef 2], [.lsp (dsRef 1)], ln 3⟩]))
    (.assign (ln 4) true (.legacy [wrt 2 0 7, rdt 0 0 7])))))
def dsQ : Deferred := .procedural .alwaysFF (.timed (.signalEvent ⟨.posEdge, some 1⟩))
  (.assign (ln 5) false (.aligned [⟨[dsRef 3], [.lsp (dsRef 2)], ln 5⟩]))
def dsD : Deferred := .continuous (ln 6) (.aligned [⟨[dsRef 4], [.lsp (dsRef 3)], ln 6⟩])

def dsBlocks : List Deferred := [dsB, dsC, dsQ, dsD]

theorem dsPrepared : Prepared dsBld dsHist dsBlocks Tracker.slots where
  start := by
    refine ⟨⟨⟨[dsCall], rfl⟩, ?_, ?_⟩, by rfl, ?_⟩
    · intro sym e he; cases he
    · intro p hp; cases hp
    · intro x hx
      cases List.mem_singleton.1 hx
      refine ⟨by simp, fun d hd => ?_⟩
      cases List.mem_singleton.1 hd
      exact ⟨0, by decide, rfl⟩
  plain := plain_of_two (lo := 0) (mid := 3) (hi := 7) (by decide) (by decide) (by decide)
    (by decide) (by decide)
  live := by intro b hb; simp [dsBlocks] at hb; rcases hb with rfl | rfl | rfl | rfl <;> decide
  events := by
    intro b hb
    simp [dsBlocks] at hb
    rcases hb with rfl | rfl | rfl | rfl
    · trivial
    · exact ⟨trivial, by simp [PlainClocks, eventsOf]⟩
    · exact ⟨trivial, by simp [PlainClocks, eventsOf]⟩
    · trivial
  visits := fun _ => List.Perm.refl _

theorem ds_clocked : ∀ b ∈ dsBlocks, Clocked b → b = dsQ := by
  intro b hb hc
  simp [dsBlocks] at hb
  obtain ⟨⟨v, hv, _⟩, _⟩ := hc
  rcases hb with rfl | rfl | rfl | rfl
  · cases hv
  · cases hv
  · rfl
  · cases hv

theorem ds_q : Clocked dsQ := ⟨⟨_, List.mem_singleton.2 rfl, by decide⟩, by simp [dsQ, blockEvents, eventsOf]⟩

theorem ds_noNode {y : Nat} (h : y ≠ 3) : NoNode dsBld dsBlocks y := by
  refine ⟨rfl, fun b hb hc w hw e => ?_⟩
  rw [ds_clocked b hb hc] at hw
  cases List.mem_singleton.1 hw
  exact h e.symm

/-- The graph that is built, and its edges. -/
def dsGraph : NetGraph := (dsBld.build flowCtx.D Tracker.slots dsBlocks).toOption.getD {}

def dsNext (n : Nat) : List Nat := (dsGraph.g.obj n).outE.map Edge.tgt

/-- The paths to line 3: nothing is written on them. -/
def dsPaths : List Wr → Prop := After (After Start (.branch false (ln 2))) (.reads [dsRef 1])

theorem dsPaths_iff (tr : List Wr) : dsPaths tr ↔ tr = [] := by
  constructor
  · rintro ⟨_, _, ⟨_, _, rfl, h1, rfl⟩, h2, rfl⟩
    cases h1; cases h2; rfl
  · rintro rfl
    exact ⟨[], [], ⟨[], [], rfl, .branch _ _, rfl⟩, .reads _, rfl⟩

theorem ds_leaves_b {p : Int} (h : InRng ⟨0, 7⟩ p) : Leaves dsB.stmt 1 p (ln 1) :=
  .inr ⟨by simp [dsB, Deferred.stmt, nbaWrites], _, .assign _ _ _, [], ⟨1, ⟨0, 7⟩, ln 1, true⟩, [],
    rfl, ⟨rfl, rfl, h⟩, rfl, by simp⟩

theorem ds_leaves_q {p : Int} (h : InRng ⟨0, 7⟩ p) : Leaves dsQ.stmt 3 p (ln 5) :=
  .inl ⟨[], ⟨3, ⟨0, 7⟩, ln 5, false⟩, [], rfl, ⟨rfl, rfl, h⟩, rfl, by simp⟩

theorem ds_unclocked : ¬ Clocked dsB := fun h => by
  have := ds_clocked dsB (by simp [dsBlocks]) h
  simp [dsB, dsQ] at this

/-- The hypotheses of `block_to_block_partial` and `design_drivers_partial` are met by the read of
`b` on line 3, which no write of the block precedes, and the write of `b` on line 1; node 3 is
entered from node 1 (line 1) and node 1 from node 0 (the port). -/
example : Use Start dsC.stmt (.assignment (ln 3)) (dsRef 1) dsPaths ∧ (∃ tr, dsPaths tr) ∧
    ReadFits (allWrites dsC.stmt) 1 ⟨0, 7⟩ ∧
    (∀ tr, dsPaths tr → ∀ w ∈ tr, ¬ Hits true 1 0 w) ∧ flowCtx.D.kind 1 ≠ .modportPort ∧
    NoNode dsBld dsBlocks 1 ∧ ¬ Clocked dsB ∧ Leaves dsB.stmt 1 0 (ln 1) ∧
    Drives dsBld.trk dsBld.drv 0 0 (some 0) ∧
    dsGraph.data 1 = .assignment (ln 1) ∧ dsGraph.data 3 = .assignment (ln 3) ∧
    dsNext 0 = [1, 4] ∧ dsNext 1 = [2, 3, 7] := by
  refine ⟨.right (.right (.first (.seg (List.mem_singleton.2 rfl) (List.mem_singleton.2 rfl)
    (.lsp _) ?_))), ⟨[], (dsPaths_iff _).2 rfl⟩, .inr ?_, ?_, by decide, ds_noNode (by decide),
    ds_unclocked, ds_leaves_b (by simp [InRng]), ?_, by rfl, by rfl, by decide, by decide⟩
  · intro p _ w hw hh
    cases List.mem_singleton.1 hw
    exact absurd hh.2.1 (by decide)
  · rintro k ⟨w, hw, hs, _⟩
    have : ∀ w ∈ allWrites dsC.stmt, w.sym ≠ 1 := by decide
    exact absurd hs (this w hw)
  · intro tr ht w hw
    rw [(dsPaths_iff tr).1 ht] at hw
    cases hw
  · exact ⟨[(⟨0, 7⟩, [⟨some 0, 0⟩])], by rfl, _, List.mem_singleton.2 rfl, _,
      List.mem_singleton.2 rfl, rfl⟩

/-- The hypotheses of `design_registers_partial` and `register_to_block_partial` are met by `q`: its
register is node 7, entered from node 6 (line 5) and node 1 (the driver of the clock), and entering
node 8 (line 6). -/
example : Clocked dsQ ∧ Leaves dsQ.stmt 3 0 (ln 5) ∧ dsBld.vars 3 = [] ∧
    (∀ b ∈ [dsB, dsC] ++ [dsD], Clocked b → ∀ w ∈ allWrites b.stmt, w.sym ≠ 3) ∧
    (∀ w ∈ allWrites dsQ.stmt, w.sym = 3 → w.bounds = ⟨0, 7⟩) ∧
    Use Start dsD.stmt (.assignment (ln 6)) (dsRef 3) Start ∧
    (∀ w ∈ allWrites dsD.stmt, w.sym ≠ 3) ∧
    (∀ v ∈ blockEvents dsQ, ∀ g, v.signal = some g → NoNode dsBld dsBlocks g) ∧
    dsNext 6 = [7] ∧ dsNext 7 = [8] := by
  refine ⟨ds_q, ds_leaves_q (by simp [InRng]), rfl, ?_, by decide, ?_, by decide, ?_, by decide,
    by decide⟩
  · intro b _ _
    have : ∀ b ∈ [dsB, dsC] ++ [dsD], ∀ w ∈ allWrites b.stmt, w.sym ≠ 3 := by
      intro b hb; simp at hb; rcases hb with rfl | rfl | rfl <;> decide
    exact this b ‹_›
  · refine .seg (List.mem_singleton.2 rfl) (List.mem_singleton.2 rfl) (.lsp _) ?_
    intro p _ w hw hh
    cases List.mem_singleton.1 hw
    exact absurd hh.2.1 (by decide)
  · intro v hv g hg
    cases List.mem_singleton.1 hv
    cases hg
    exact ds_noNode (by decide)

end Verif.Props

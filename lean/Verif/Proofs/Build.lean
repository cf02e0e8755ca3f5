import Verif.Proofs.DataflowUse
import Verif.Props.Dataflow
import Verif.Props.Sequential

/-! Helper lemmas for the build: one deferred block, several deferred blocks, resolution. -/
namespace Verif.Proofs
open Verif.Spec Verif.Model Verif.Props

/-! ### Fewer writes -/

theorem cut_sub {V W : List Wr} (h : ∀ w ∈ V, w ∈ W) {y : Nat} {k : Int} (hc : Cut V y k) : Cut W y k := by
  obtain ⟨w, hw, h1⟩ := hc
  exact ⟨w, h w hw, h1⟩

theorem plain_sub {V W : List Wr} (h : ∀ w ∈ V, w ∈ W) (hW : Plain W) : Plain V :=
  ⟨fun w hw => hW.rng w (h w hw),
    fun w hw j k hj hk => hW.cuts w (h w hw) j k (cut_sub h hj) (cut_sub h hk)⟩

theorem fits_sub {V W : List Wr} (h : ∀ w ∈ V, w ∈ W) {y : Nat} {lo hi : Int} (hf : Fits V y lo hi) :
    Fits W y lo hi := by
  obtain ⟨⟨w, hw, h1⟩, h2, h3⟩ := hf
  exact ⟨⟨w, h w hw, h1⟩, cut_sub h h2, cut_sub h h3⟩

/-! ### Driven ranges and intervals of well-formed driver maps -/

/-- Two ranges of one signal share no bit. -/
def Disjoint_ (w v : Driven) : Prop :=
  w.sym = v.sym → ∀ p, ¬ (InRng w.bounds p ∧ InRng v.bounds p)

theorem driven_pairwise {m : DMap} {sym : Nat} {es : List (Ivl Nat)} (hne : ∀ e ∈ es, e.lo ≤ e.hi)
    (hp : es.Pairwise fun a b => a.hi < b.lo) {vs : List Driven}
    (h : (es.mapM fun e => do
        let l ← m.getList e.val
        return (⟨sym, ⟨e.lo, e.hi⟩, l⟩ : Driven)) = .ok vs) :
    vs.Pairwise Disjoint_ := by
  have key : ∀ (es : List (Ivl Nat)) (vs : List Driven), (es.mapM fun e => (do
        let l ← m.getList e.val
        return (⟨sym, ⟨e.lo, e.hi⟩, l⟩ : Driven) : Except Fault Driven)) = .ok vs →
      vs.map (·.bounds) = es.map fun e => ⟨e.lo, e.hi⟩ := by
    intro es
    induction es with
    | nil => intro vs h; cases h; rfl
    | cons e es ih =>
      intro vs h
      rw [List.mapM_cons] at h
      cases hl : m.getList e.val with
      | error f => simp [hl, bind, Except.bind] at h
      | ok l =>
        simp only [hl, bind, Except.bind, pure, Except.pure] at h
        split at h
        · cases h
        · rename_i us hus
          cases h
          simp only [List.map_cons, List.cons.injEq, true_and]
          exact ih us hus
  have hk := key es vs h
  have hb : (vs.map (·.bounds)).Pairwise fun a b => ∀ p, ¬ (InRng a p ∧ InRng b p) := by
    rw [hk, List.pairwise_map]
    refine hp.imp_of_mem fun {a b} ha hb hab p hc => ?_
    have h1 := hne a ha
    have h2 := hne b hb
    rw [inRng_iff, inRng_iff] at hc
    simp only [BitRange.lower, BitRange.upper] at hc
    omega
  rw [List.pairwise_map] at hb
  exact hb.imp fun {a b} h => (fun _ => h : Disjoint_ a b)

theorem driven_ok {W : List Wr} {t : Tracker} (ht : TrkOk t) {drv : List DMap} (hd : DrvOk W t drv)
    (order : List (Nat × Nat)) (ho : ∀ x ∈ order, x ∈ t.slots) (hnd : (order.map (·.1)).Nodup) :
    ∃ ws, drivenOf drv order = .ok ws ∧ ws.Pairwise Disjoint_ ∧ (∀ w ∈ ws, w.sym ∈ order.map (·.1)) ∧
      (∀ w ∈ ws, Fits W w.sym w.bounds.lower w.bounds.upper ∧ (∃ d, HasN w.drivers d) ∧
        w.bounds.left ≤ w.bounds.right) ∧
      ∀ y p d, (∃ w ∈ ws, w.sym = y ∧ InRng w.bounds p ∧ HasN w.drivers d) ↔
        ∃ i m, (y, i) ∈ order ∧ drv[i]? = some m ∧ Drv m p d := by
  induction order with
  | nil => exact ⟨[], rfl, List.Pairwise.nil, by simp, by simp, by simp⟩
  | cons x order ih =>
    obtain ⟨sym, i⟩ := x
    rw [List.map_cons, List.nodup_cons] at hnd
    obtain ⟨ws, h1, hpw, hsy, h2, h3⟩ := ih (fun x hx => ho x (List.mem_cons_of_mem _ hx)) hnd.2
    have hs := ho _ List.mem_cons_self
    cases hm : drv[i]? with
    | none =>
      refine ⟨ws, by simp only [drivenOf, h1, hm], hpw, fun w hw => List.mem_cons_of_mem _ (hsy w hw), h2,
        fun y p d => ?_⟩
      rw [h3]
      constructor
      · rintro ⟨j, m, g1, g2⟩; exact ⟨j, m, List.mem_cons_of_mem _ g1, g2⟩
      · rintro ⟨j, m, g1, g2, g3⟩
        rcases List.mem_cons.1 g1 with g1 | g1
        · cases g1; rw [hm] at g2; cases g2
        · exact ⟨j, m, g1, g2, g3⟩
    | some m =>
      obtain ⟨hI, hf⟩ := hd.maps sym i m hs hm
      have hF := hd.full sym i m hs hm
      obtain ⟨vs, k1, k2, k3⟩ := mapM_ok (f := fun e : Ivl Nat => (do
          let l ← m.getList e.val
          return (⟨sym, ⟨e.lo, e.hi⟩, l⟩ : Driven) : Except Fault Driven))
        (P := fun e w => w.sym = sym ∧ w.bounds = ⟨e.lo, e.hi⟩ ∧ m.lists.get e.val = some w.drivers)
        m.ivls (by
          intro e he
          obtain ⟨l, hl⟩ := hI.live e he
          exact ⟨⟨sym, ⟨e.lo, e.hi⟩, l⟩,
            by simp only [getList_ok hl, bind, Except.bind, pure, Except.pure], rfl, rfl, hl⟩)
      refine ⟨vs ++ ws, by simp only [drivenOf, h1, hm]; rw [k1], ?_, ?_, ?_, ?_⟩
      · rw [List.pairwise_append]
        refine ⟨driven_pairwise hI.ok.1 hI.ok.2 k1, hpw, fun v hv w hw => ?_⟩
        intro hc
        obtain ⟨e, _, q1, _⟩ := k3 v hv
        exact absurd (hsy w hw) (by rw [← hc, q1]; exact hnd.1)
      · intro w hw
        rcases List.mem_append.1 hw with hw | hw
        · obtain ⟨e, _, q1, _⟩ := k3 w hw
          rw [q1]; exact List.mem_cons_self
        · exact List.mem_cons_of_mem _ (hsy w hw)
      · intro w hw
        rcases List.mem_append.1 hw with hw | hw
        · obtain ⟨e, he, q1, q2, q3⟩ := k3 w hw
          have hne := hI.ok.1 e he
          rw [q1, q2]
          have hlow : (BitRange.mk e.lo e.hi).lower = e.lo := by simp [BitRange.lower]; omega
          have hup : (BitRange.mk e.lo e.hi).upper = e.hi := by simp [BitRange.upper]; omega
          rw [hlow, hup]
          refine ⟨hf e he, ?_, hne⟩
          obtain ⟨d, e', he', g1, g2, l', hl', hn⟩ := hF e.lo ⟨e, he, Int.le_refl _, hne⟩
          have := ivl_unique hI.ok he' he g1 g2 (Int.le_refl _) hne
          subst this
          rw [q3] at hl'; cases hl'
          exact ⟨d, hn⟩
        · exact h2 w hw
      · intro y p d
        have hv : (∃ w ∈ vs, w.sym = y ∧ InRng w.bounds p ∧ HasN w.drivers d) ↔ sym = y ∧ Drv m p d := by
          constructor
          · rintro ⟨w, hw, e1, e2, e3⟩
            obtain ⟨e, he, q1, q2, q3⟩ := k3 w hw
            have hne := hI.ok.1 e he
            rw [q2, inRng_iff] at e2
            simp only [BitRange.lower, BitRange.upper] at e2
            exact ⟨q1.symm.trans e1, e, he, by omega, by omega, _, q3, e3⟩
          · rintro ⟨rfl, e, he, e1, e2, l, hl, e3⟩
            obtain ⟨w, hw, q1, q2, q3⟩ := k2 e he
            rw [hl] at q3; cases q3
            refine ⟨w, hw, q1, ?_, e3⟩
            rw [q2, inRng_iff]
            simp only [BitRange.lower, BitRange.upper]
            omega
        constructor
        · rintro ⟨w, hw, e1⟩
          rcases List.mem_append.1 hw with hw | hw
          · obtain ⟨rfl, h⟩ := hv.1 ⟨w, hw, e1⟩
            exact ⟨i, m, List.mem_cons_self, hm, h⟩
          · obtain ⟨j, m', g1, g2⟩ := (h3 y p d).1 ⟨w, hw, e1⟩
            exact ⟨j, m', List.mem_cons_of_mem _ g1, g2⟩
        · rintro ⟨j, m', g1, g2, g3⟩
          rcases List.mem_cons.1 g1 with g1 | g1
          · cases g1
            rw [hm] at g2; cases g2
            obtain ⟨w, hw, e1⟩ := hv.2 ⟨rfl, g3⟩
            exact ⟨w, List.mem_append_left _ hw, e1⟩
          · obtain ⟨w, hw, e1⟩ := (h3 y p d).2 ⟨j, m', g1, g2, g3⟩
            exact ⟨w, List.mem_append_right _ hw, e1⟩

/-- The driver intervals that share bits with a range. -/
theorem intervals_ok {W : List Wr} {t : Tracker} (ht : TrkOk t) {drv : List DMap} (hd : DrvOk W t drv)
    (y : Nat) (b : BitRange) :
    ∃ out, t.intervals drv y b = .ok out ∧
      (∀ x ∈ out, ∀ i ∈ x.2, ∃ p, DAt t drv y p i.node) ∧
      ∀ p d, InRng b p → DAt t drv y p d → ∃ x ∈ out, InRng x.1 p ∧ HasN x.2 d := by
  unfold Tracker.intervals
  cases hg : t.getSlot y with
  | none =>
    refine ⟨[], rfl, by simp, ?_⟩
    rintro p d _ ⟨i, m, h1, _⟩
    exact absurd (List.mem_map.2 ⟨_, h1, rfl⟩) (getSlot_none hg)
  | some i =>
    have hi := getSlot_mem hg
    cases hm : drv[i]? with
    | none =>
      refine ⟨[], by simp only [hm], by simp, ?_⟩
      rintro p d _ ⟨k, m, h1, h2, _⟩
      rw [ht.slot_unique h1 hi, hm] at h2; cases h2
    | some m =>
      simp only [hm]
      obtain ⟨hI, _⟩ := hd.maps y i m hi hm
      obtain ⟨out, k1, k2, k3⟩ := mapM_ok (f := fun e : Ivl Nat => (do
          let l ← m.getList e.val
          return ((⟨e.lo, e.hi⟩ : BitRange), l) : Except Fault (BitRange × List DriverInfo)))
        (P := fun e x => x.1 = ⟨e.lo, e.hi⟩ ∧ m.lists.get e.val = some x.2)
        (imFind m.ivls b.lower b.upper) (by
          intro e he
          obtain ⟨l, hl⟩ := hI.live e (List.mem_filter.1 he).1
          exact ⟨(⟨e.lo, e.hi⟩, l),
            by simp only [getList_ok hl, bind, Except.bind, pure, Except.pure], rfl, hl⟩)
      refine ⟨out, k1, ?_, ?_⟩
      · intro x hx j hj
        obtain ⟨e, he, _, q2⟩ := k3 x hx
        have he' := (List.mem_filter.1 he).1
        have hne := hI.ok.1 e he'
        exact ⟨e.lo, i, m, hi, hm, e, he', Int.le_refl _, hne, _, q2, j, hj, rfl⟩
      · rintro p d hp ⟨k, mk, h1, h2, e, he, e1, e2, l, hl, hn⟩
        rw [ht.slot_unique h1 hi, hm] at h2; cases h2
        rw [inRng_iff] at hp
        obtain ⟨x, hx, q1, q2⟩ := k2 e (List.mem_filter.2 ⟨he, by simp [Ivl.hits]; omega⟩)
        rw [hl] at q2; cases q2
        refine ⟨x, hx, ?_, hn⟩
        rw [q1, inRng_iff]
        simp only [BitRange.lower, BitRange.upper]
        omega

/-! ### The builder between blocks -/

/-- A well-formed builder: its driver maps fit the writes `W`, and all drivers are nodes. -/
structure BInv (W : List Wr) (s : Bld) : Prop where
  ok : BldOk s
  trk : TrkOk s.trk
  drv : DrvOk W s.trk s.drv
  nodes : ∀ y p d, DAt s.trk s.drv y p d → ∃ n ∈ s.net.g.nodes, d = some n

theorem isAssign_old {a b : NetGraph} (h : NetLe a b) {d : Option Nat} {loc : TextLoc}
    (hd : ∃ n ∈ a.g.nodes, d = some n) : IsAssign b d loc ↔ IsAssign a d loc := by
  obtain ⟨n, hn, rfl⟩ := hd
  constructor
  · rintro ⟨m, _, h1, h2⟩
    cases h1
    exact ⟨n, hn, rfl, by rw [← h.data n hn, h2]⟩
  · exact isAssign_mono h

/-- Merging the ranges of a combinational block. -/
theorem comb_ok {W : List Wr} (hW : Plain W) (D : Design) (ws : List Driven) :
    ∀ {s : Bld}, BInv W s → (∀ w ∈ ws, Fits W w.sym w.bounds.lower w.bounds.upper ∧
      (∃ d, HasN w.drivers d) ∧ ∀ d, HasN w.drivers d → ∃ n ∈ s.net.g.nodes, d = some n) →
    ∃ s', s.mergeDrivers D [] ws = .ok s' ∧ BInv W s' ∧ NetLe s.net s'.net ∧
      s'.vars = s.vars ∧ s'.queue = s.queue ∧
      ∀ y p d, DAt s'.trk s'.drv y p d ↔ DAt s.trk s.drv y p d ∨
        ∃ w ∈ ws, w.sym = y ∧ InRng w.bounds p ∧ HasN w.drivers d := by
  induction ws with
  | nil => intro s hs _; exact ⟨s, rfl, hs, NetLe.refl _, rfl, rfl, by simp⟩
  | cons w ws ih =>
    intro s hs hw
    obtain ⟨w1, w2, w3⟩ := hw w List.mem_cons_self
    obtain ⟨drv1, a1, a2, a3, a4⟩ := addDrivers_at hW hs.trk hs.drv w1 w.drivers w2 true
    obtain ⟨ht', _, _⟩ := slotFor_ok hs.trk w.sym
    generalize (s.trk.slotFor w.sym).1 = t1 at *
    have hnodes : ∀ d ∈ hookupDeps D ⟨s.net, s.vars, t1, drv1, s.queue⟩ w.sym w.bounds w.drivers ++
        extraDeps D ⟨s.net, s.vars, t1, drv1, s.queue⟩ w.sym w.bounds w.drivers,
        d.src ∈ s.net.g.nodes ∧ d.tgt ∈ s.net.g.nodes := by
      have hsrc : ∀ k, (∃ x ∈ w.drivers, x.node = some k) → k ∈ s.net.g.nodes := by
        intro k hk
        obtain ⟨n, hn, h⟩ := w3 (some k) hk
        cases h; exact hn
      intro d hd
      rcases List.mem_append.1 hd with hd | hd
      · obtain ⟨hx, _, _, _, port, _, e, he, ht⟩ := mem_hookupDeps hd
        refine ⟨hsrc _ hx, ?_⟩
        rw [← ht]; exact (hs.ok.vars _ _ he).1
      · obtain ⟨hx, _, _, hh⟩ := mem_extraDeps hd
        refine ⟨hsrc _ hx, ?_⟩
        rcases hh with ⟨_, _, _, _, v, _, hv, _⟩ | ⟨_, hv, _⟩
        · obtain ⟨e, he, h8, _⟩ := varLookup_mem hv
          rw [← h8]; exact (hs.ok.vars _ _ he).1
        · obtain ⟨e, he, h8, _⟩ := varLookup_mem hv
          rw [← h8]; exact (hs.ok.vars _ _ he).1
    obtain ⟨net2, k1, k2, k3, k4, k5, _⟩ := deps_le hs.ok.reach hnodes
    have hdat : ∀ y p d, DAt t1 drv1 y p d ↔ DAt s.trk s.drv y p d ∨
        (w.sym = y ∧ InRng w.bounds p ∧ HasN w.drivers d) := by
      intro y p d
      by_cases hy : y = w.sym
      · subst hy
        rw [a3, inRng_iff]
        simp only [implies_true, and_true, true_and]
        rw [Or.comm, and_assoc]
      · rw [a4 y p d hy]
        constructor
        · exact Or.inl
        · rintro (h | h)
          · exact h
          · exact absurd h.1.symm hy
    have hs2 : BInv W ⟨net2, s.vars, t1, drv1, s.queue⟩ := by
      refine ⟨⟨k2, ?_, ?_⟩, ht', a2, ?_⟩
      · intro sym e he; simp only [k4, k5]; exact hs.ok.vars sym e he
      · intro p hp n hn; simp only [k4]; exact hs.ok.pend p hp n hn
      · intro y p d hd
        simp only [k4]
        rcases (hdat y p d).1 hd with h | h
        · exact hs.nodes y p d h
        · exact w3 d h.2.2
    obtain ⟨s', b1, b2, b3, b4, b5, b6⟩ := ih hs2 (fun v hv => by
      simp only [k4]; exact hw v (List.mem_cons_of_mem _ hv))
    refine ⟨s', ?_, b2, k3.trans b3, b4, b5, fun y p d => ?_⟩
    · simp only [Bld.mergeDrivers, List.isEmpty_nil, if_true, Bld.mergeComb, a1, Bld.addDeps, k1]
      exact b1
    · rw [b6, hdat]
      simp only [List.mem_cons, exists_eq_or_imp]
      rw [or_assoc]

/-- The analysis of a block. -/
def dfaOf (c : DfaCtx) (s : Dfa) : Deferred → Except Fault Dfa
  | .procedural _ _ st => s.runBlock c st
  | .continuous loc a => s.exec c (.assign loc true a)

/-- The sensitivity of a block. -/
def sensOf : Deferred → Except Fault (List SensEntry)
  | .procedural k body _ => collectSensitivity k body
  | .continuous .. => .ok []

theorem handleBlock_eq (D : Design) (ord : Tracker → List (Nat × Nat)) (s : Bld) (b : Deferred) :
    s.handleBlock D ord b =
      match sensOf b with
      | .error e => .error e
      | .ok sens =>
        match dfaOf ⟨D, s.vars, none⟩ { net := s.net, queue := s.queue } b with
        | .error e => .error e
        | .ok d => s.mergeBlock D ord sens d := by
  cases b <;> rfl

theorem start_ok {s : Bld} (h : BldOk s) (D : Design) (W : List Wr) :
    Ok ⟨D, s.vars, none⟩ W { net := s.net, queue := s.queue } := by
  refine ⟨h.reach, trkOk_empty, ⟨drvOk_empty _ _, fun _ _ _ h => absurd h dAt_empty, by simp, by simp⟩,
    ?_, by simp, by simp⟩
  intro y b n hl
  obtain ⟨e, he, h1, _⟩ := varLookup_mem hl
  rw [← h1]; exact (h.vars y e he).1

theorem start_sem {net : NetGraph} {q : List Pending} : Sem { net := net, queue := q } Start := by
  refine ⟨⟨fun _ => ⟨[], rfl⟩, fun _ => rfl⟩, fun _ y p loc => ⟨?_, ?_⟩⟩
  · rintro ⟨d, h, _⟩; exact absurd h dAt_empty
  · rintro ⟨_, rfl, h⟩
    obtain ⟨v, hv, _⟩ := lastAt_hits h
    cases hv

/-- The analysis of a block that some path leads through. -/
theorem dfa_ok {s : Bld} (h : BldOk s) (D : Design) {b : Deferred} (hW : Plain (allWrites b.stmt))
    (hl : live b.stmt = true) :
    ∃ d, dfaOf ⟨D, s.vars, none⟩ { net := s.net, queue := s.queue } b = .ok d ∧
      Ok ⟨D, s.vars, none⟩ (allWrites b.stmt) d ∧ NetLe s.net d.net ∧
      Queued { net := s.net, queue := s.queue } d ∧
      (∀ y p loc, (∃ n, DAt d.trk d.cur.drv y p n ∧ IsAssign d.net n loc) ↔ Leaves b.stmt y p loc) ∧
      (∀ who r Q, Use Start b.stmt who r Q → (∃ tr, Q tr) → ReadFits (allWrites b.stmt) r.sym r.bounds →
        ∃ n ∈ d.net.g.nodes, n ∉ s.net.g.nodes ∧ d.net.data n = who ∧ Linked ⟨D, s.vars, none⟩ d r n Q) ∧
      ∀ u d', Inside b.stmt u d' → Paired d.net u d' := by
  obtain ⟨s1, h1, h2, h3, h4, h5⟩ := exec_ok hW b.stmt _ (start_ok h D (allWrites b.stmt)) (fun w h => h)
  have h5 := h5 _ start_sem
  have hst : appS Start b.stmt = Runs b.stmt := appS_start b.stmt
  rw [hst] at h5
  have huse : ∀ who r Q, Use Start b.stmt who r Q → (∃ tr, Q tr) →
      ReadFits (allWrites b.stmt) r.sym r.bounds → ∃ n ∈ s1.net.g.nodes, n ∉ s.net.g.nodes ∧
        s1.net.data n = who ∧ Linked ⟨D, s.vars, none⟩ s1 r n Q := by
    intro who r Q hu hq hf
    obtain ⟨s1', n, g1, g2, g3, g4, g5⟩ := use_ok hW hu hf hq _ (start_ok h D _) (fun w h => h) start_sem
    rw [h1] at g1; cases g1
    exact ⟨n, g2, g3, g4, g5⟩
  have hgd : ∀ u d', Inside b.stmt u d' → Paired s1.net u d' := by
    intro u d' hi
    cases hi with
    | guard hg => exact guards_ok hW hg _ s1 (start_ok h D _) (fun w h => h) h1
    | self hg =>
      obtain ⟨r, Q, p, tr, k1, k2, k3, k4, k5⟩ := rereads_after hg
      obtain ⟨s1', n, g1, g2, _, g4, g5⟩ := useAfter_ok hW k1 k2 ⟨_, k4⟩ _ (start_ok h D _) (fun w h => h) start_sem
      rw [h1] at g1; cases g1
      obtain ⟨k, m1, m2, m3⟩ := g5.defs p tr _ k3 k4 k5
      exact ⟨k, m1, n, g2, m2, g4, m3⟩
  have h4' : s1.cur.reach = true := by rw [h4, hl]; rfl
  cases b with
  | continuous loc a =>
    refine ⟨s1, h1, h2, h3.net, h3.queue, fun y p l => ?_, huse, hgd⟩
    rw [h5.defs h4']
    have hn : nbaWrites true (Deferred.continuous loc a).stmt = [] := rfl
    unfold Leaves
    rw [hn]
    constructor
    · intro h; exact .inr ⟨by simp, h⟩
    · rintro (h | h)
      · obtain ⟨v, hv, _⟩ := lastAt_hits h; cases hv
      · exact h.2
  | procedural k body st =>
    obtain ⟨l, e1, e2⟩ := h3.nba
    simp only [List.nil_append] at e1
    subst e1
    obtain ⟨s2, g1, g2, g3, g4, g5⟩ := processNba_at hW s1.nba s1 _ h2 h2.nba e2
    refine ⟨s2, by
      simp only [Deferred.stmt] at h1
      simp only [dfaOf, Dfa.runBlock, h1, g1], g2, by rw [g3]; exact h3.net, ?_, fun y p l => ?_, ?_, by rw [g3]; exact hgd⟩
    · obtain ⟨q, q1, q2⟩ := h3.queue
      exact ⟨q, by rw [g4]; exact q1, by rw [g3]; exact q2⟩
    · rw [g5, h5.defs h4']
      rfl
    · intro who r Q hu hq hf
      obtain ⟨n, k1, k2, k3, k4⟩ := huse who r Q hu hq hf
      rw [g3]
      refine ⟨n, k1, k2, k3, ?_, ?_, ?_, ?_⟩
      · rw [g3]; exact k4.defs
      · rw [g4]; exact k4.queued
      · rw [g4]; exact k4.whole
      · rw [g3]; exact k4.behind

/-! ### Writes to interface variables -/

/-- The dependency on the node of a variable range that a write refers to. -/
theorem extra_to {D : Design} {s : Bld} {w : Driven} {d : DriverInfo} (hd : d ∈ w.drivers) {n : Nat}
    (hn : d.node = some n) {v : Nat × BitRange} (hv : Writes D w d v) {k : Nat}
    (h : s.vars.lookup v.1 v.2 = some k) :
    ∃ x ∈ extraDeps D s w.sym w.bounds w.drivers, x.src = n ∧ x.tgt = k := by
  unfold extraDeps
  rcases hv with ⟨hk, hv⟩ | ⟨hk, rfl⟩
  · refine ⟨⟨n, k, some (D.ref w.sym), v.2, .none⟩, List.mem_flatMap.2 ⟨d, hd, ?_⟩, rfl, rfl⟩
    simp only [hn, hk]
    exact List.mem_filterMap.2 ⟨v, hv, by simp [h]⟩
  · refine ⟨⟨n, k, some (D.ref w.sym), ((s.net.data k).bounds).getD w.bounds, .none⟩,
      List.mem_flatMap.2 ⟨d, hd, ?_⟩, rfl, rfl⟩
    simp only at h
    simp only [hn, hk]
    simp [h]

/-- Nodes of other signals stay when a block is merged. -/
theorem merge_same {D : Design} {sens : List SensEntry} {y : Nat} (ws : List Driven) :
    ∀ {s s' : Bld}, BldOk s → (∀ w ∈ ws, DriversIn s.net w) → s.mergeDrivers D sens ws = .ok s' →
    (sens ≠ [] → ∀ w ∈ ws, w.sym ≠ y) → s'.vars y = s.vars y := by
  induction ws with
  | nil => intro s s' _ _ h _; cases h; rfl
  | cons u ws ih =>
    intro s s' hs hw h hne
    by_cases hse : sens = []
    · subst hse
      rw [(combinational_block (D := D) _ hs hw h).2.2.2.1]
    · have hemp : sens.isEmpty = false := by cases sens with
        | nil => exact absurd rfl hse
        | cons _ _ => rfl
      obtain ⟨s1, st, net1, h1, h2, h3, h4, h5, h6, _⟩ :=
        mergeSeq_spec (D := D) (sens := sens) hs (hw u List.mem_cons_self)
      simp only [Bld.mergeDrivers, hemp, Bool.false_eq_true, if_false, h1] at h
      rw [ih h2 (fun x hx d hd n hn => by
        rw [h4]; exact List.mem_append_left _ (hw x (List.mem_cons_of_mem _ hx) d hd n hn)) h
        (fun hs w hw => hne hs w (List.mem_cons_of_mem _ hw)), h6]
      unfold VarTab.insert
      simp [(hne hse u List.mem_cons_self).symm]

/-- Each driver of a merged range is joined to the node found for a variable range it writes. -/
theorem merge_to {D : Design} {sens : List SensEntry} {v : Nat × BitRange} {k : Nat} (ws : List Driven) :
    ∀ {s s' : Bld}, BldOk s → (∀ w ∈ ws, DriversIn s.net w) → s.mergeDrivers D sens ws = .ok s' →
    (sens ≠ [] → ∀ w ∈ ws, w.sym ≠ v.1) → s.vars.lookup v.1 v.2 = some k →
    ∀ w ∈ ws, ∀ d ∈ w.drivers, ∀ n, d.node = some n → Writes D w d v → Joined s'.net n k := by
  induction ws with
  | nil => intro s s' _ _ _ _ _ w hw; cases hw
  | cons u ws ih =>
    intro s s' hs hw h hne hk w hmem d hd n hn hv
    by_cases hse : sens = []
    · subst hse
      simp only [Bld.mergeDrivers, List.isEmpty_nil, if_true] at h
      split at h
      · cases h
      rename_i s1 hs1
      have hone : s.mergeDrivers D [] [u] = .ok s1 := by
        simp only [Bld.mergeDrivers, List.isEmpty_nil, if_true, hs1]
      obtain ⟨g1, g2, g3, g4, g5, _⟩ := combinational_block (D := D) [u] hs
        (fun x hx => hw x (by rw [List.mem_singleton.1 hx]; exact List.mem_cons_self)) hone
      have hw1 : ∀ x ∈ ws, DriversIn s1.net x := fun x hx d hd n hn => by
        rw [g2]; exact hw x (List.mem_cons_of_mem _ hx) d hd n hn
      rcases List.mem_cons.1 hmem with rfl | hmem
      · obtain ⟨i1, _⟩ := driver_to_port_partial (D := D) (port := 0) ws g1 hw1 h
        simp only [Bld.mergeComb] at hs1
        split at hs1
        · cases hs1
        rename_i t1 d1 ht1
        unfold Bld.addDeps at hs1
        split at hs1
        · cases hs1
        rename_i net2 hn2
        cases hs1
        obtain ⟨x, hx, hsrc, htgt⟩ := extra_to (s := ⟨s.net, s.vars, t1, d1, s.queue⟩) hd hn hv hk
        refine i1 _ _ ((dependencies_join hs.reach ?_ hn2 _ _).2 (.inr ⟨x, List.mem_append_right _ hx, hsrc, htgt⟩))
        intro y hy
        rcases List.mem_append.1 hy with hy | hy
        · obtain ⟨⟨x, hx, hn⟩, _, _, _, port, _, e, he, ht⟩ := mem_hookupDeps hy
          refine ⟨hw w List.mem_cons_self x hx _ hn, ?_⟩
          rw [← ht]; exact (hs.vars _ _ he).1
        · obtain ⟨⟨x, hx, hn⟩, _, _, hh⟩ := mem_extraDeps hy
          refine ⟨hw w List.mem_cons_self x hx _ hn, ?_⟩
          rcases hh with ⟨_, _, _, _, z, _, hv, _⟩ | ⟨_, hv, _⟩
          · obtain ⟨e, he, h8, _⟩ := varLookup_mem hv
            rw [← h8]; exact (hs.vars _ _ he).1
          · obtain ⟨e, he, h8, _⟩ := varLookup_mem hv
            rw [← h8]; exact (hs.vars _ _ he).1
      · exact ih g1 hw1 h (fun h => absurd rfl h) (by rw [g4]; exact hk) w hmem d hd n hn hv
    · have hemp : sens.isEmpty = false := by cases sens with
        | nil => exact absurd rfl hse
        | cons _ _ => rfl
      obtain ⟨s1, st, net1, h1, h2, h3, h4, h5, h6, h7, h8, h9, h10, h11, h12, h13, h14, h15⟩ :=
        mergeSeq_spec (D := D) (sens := sens) hs (hw u List.mem_cons_self)
      simp only [Bld.mergeDrivers, hemp, Bool.false_eq_true, if_false, h1] at h
      have hw1 : ∀ x ∈ ws, DriversIn s1.net x := fun x hx d hd n hn => by
        rw [h4]; exact List.mem_append_left _ (hw x (List.mem_cons_of_mem _ hx) d hd n hn)
      have hk1 : s1.vars.lookup v.1 v.2 = some k := by
        have : s1.vars v.1 = s.vars v.1 := by
          rw [h6]; unfold VarTab.insert; simp [(hne hse u List.mem_cons_self).symm]
        unfold VarTab.lookup at hk ⊢
        rw [this]; exact hk
      rcases List.mem_cons.1 hmem with rfl | hmem
      · obtain ⟨s2, ns, k1, k2, k3, k4, k5, k6, k7, k8, k9, k10, k11, k12, k13⟩ :=
          sequential_block (D := D) hse ws h2 hw1
        rw [k1] at h; cases h
        obtain ⟨x, hx, hsrc, htgt⟩ := extra_to (s := ⟨net1, s1.vars, s.trk, s.drv, s1.queue⟩) hd hn hv hk1
        exact k11 _ _ ((dependencies_join h11 h14 h15 _ _).2 (.inr ⟨x, List.mem_append_right _ hx, hsrc, htgt⟩))
      · exact ih h2 hw1 h (fun hs w hw => hne hs w (List.mem_cons_of_mem _ hw)) hk1 w hmem d hd n hn hv

/-- The variable nodes of the signals that no edge-triggered block writes. -/
noncomputable def steady (bs : List Deferred) (t : VarTab) : VarTab :=
  fun y => open Classical in if ∃ b ∈ bs, Clocked b ∧ ∃ w ∈ allWrites b.stmt, w.sym = y then [] else t y

theorem steady_some {bs : List Deferred} {t : VarTab} {y : Nat} {b : BitRange} {k : Nat} :
    (steady bs t).lookup y b = some k ↔
      (∀ b ∈ bs, Clocked b → ∀ w ∈ allWrites b.stmt, w.sym ≠ y) ∧ t.lookup y b = some k := by
  unfold VarTab.lookup steady
  by_cases h : ∃ b ∈ bs, Clocked b ∧ ∃ w ∈ allWrites b.stmt, w.sym = y
  · rw [if_pos h]
    obtain ⟨b, h1, h2, w, h3, h4⟩ := h
    constructor
    · intro h; simp [imFind] at h
    · intro h; exact absurd h4 (h.1 b h1 h2 w h3)
  · rw [if_neg h]
    constructor
    · intro h'; exact ⟨fun b h1 h2 w h3 h4 => h ⟨b, h1, h2, w, h3, h4⟩, h'⟩
    · intro h'; exact h'.2

/-- What analysing and merging the blocks `bs` does to the builder. -/
structure Done (D : Design) (W : List Wr) (bs : List Deferred) (s s' : Bld) : Prop where
  inv : BInv W s'
  net : NetLe s.net s'.net
  queue : ∃ q, s'.queue = s.queue ++ q
  keep : ∀ y p d, DAt s.trk s.drv y p d → DAt s'.trk s'.drv y p d
  gain : ∀ y p d, DAt s'.trk s'.drv y p d → DAt s.trk s.drv y p d ∨ ∃ loc, IsAssign s'.net d loc
  defs : ∀ y p loc, (∃ d, DAt s'.trk s'.drv y p d ∧ IsAssign s'.net d loc) ↔
    (∃ d, DAt s.trk s.drv y p d ∧ IsAssign s.net d loc) ∨ ∃ b ∈ bs, ¬ Clocked b ∧ Leaves b.stmt y p loc
  regs : ∀ b ∈ bs, Clocked b → ∀ y p loc, Leaves b.stmt y p loc → ∃ st bd k,
    st ∈ s'.net.g.nodes ∧ s'.net.data st = .state (D.ref y).name (D.ref y).path (D.ref y).loc bd ∧
    InRng bd p ∧ k ∈ s'.net.g.nodes ∧ s'.net.data k = .assignment loc ∧ Joined s'.net k st ∧
    ⟨bd.left, bd.right, st⟩ ∈ s'.vars y ∧ bd.left ≤ bd.right ∧
    Fits (allWrites b.stmt) y bd.lower bd.upper ∧
    ∀ v ∈ blockEvents b, ∀ g, v.signal = some g → D.width g ≠ 0 →
      ⟨g, ⟨0, (D.width g : Int) - 1⟩, some st, v.edge⟩ ∈ s'.queue
  old : ∀ y e, e ∈ s.vars y → e ∈ s'.vars y
  vars : ∀ y e, e ∈ s'.vars y → e ∈ s.vars y ∨ ∃ b ∈ bs, Clocked b ∧ ∃ w ∈ allWrites b.stmt, w.sym = y
  uses : ∀ b ∈ bs, ∀ who r Q, Use Start b.stmt who r Q → (∃ tr, Q tr) →
    ReadFits (allWrites b.stmt) r.sym r.bounds → ∃ n ∈ s'.net.g.nodes, n ∉ s.net.g.nodes ∧
      s'.net.data n = who ∧
      Linked ⟨D, steady bs s.vars, none⟩ { net := s'.net, queue := s'.queue } r n Q
  hook : ∀ b ∈ bs, ∀ y p loc, Leaves b.stmt y p loc → ∃ bd, InRng bd p ∧ bd.left ≤ bd.right ∧
    Fits (allWrites b.stmt) y bd.lower bd.upper ∧ ∀ pp, D.port y = some pp →
      (∃ e ∈ s.vars pp, ∀ i, InRng bd i → e.lo ≤ i ∧ i ≤ e.hi) → ∃ k e, k ∈ s'.net.g.nodes ∧
        (¬ Clocked b → s'.net.data k = .assignment loc) ∧
        (Clocked b → s'.net.data k = .state (D.ref y).name (D.ref y).path (D.ref y).loc bd ∧
          FedBy s'.net loc k ∧ ⟨bd.left, bd.right, k⟩ ∈ s'.vars y) ∧
        e ∈ s'.vars pp ∧ (∀ i, InRng bd i → e.lo ≤ i ∧ i ≤ e.hi) ∧ Joined s'.net k e.val
  ctrl : ∀ b ∈ bs, ∀ u d, Inside b.stmt u d → Paired s'.net u d
  same : ∀ y, (∀ b ∈ bs, Clocked b → ∀ w ∈ allWrites b.stmt, w.sym ≠ y) → s'.vars y = s.vars y
  given : ∀ b ∈ bs, ∀ y p loc, Leaves b.stmt y p loc → ∃ bd, InRng bd p ∧ bd.left ≤ bd.right ∧
    Fits (allWrites b.stmt) y bd.lower bd.upper ∧ ∀ v k, (D.kind y = .modportPort ∧ (∀ e, v ∈ D.iface y e) ∨
      D.kind y = .variable ∧ v = (y, bd)) → (steady bs s.vars).lookup v.1 v.2 = some k → FedBy s'.net loc k

theorem fedBy_mono {a b : NetGraph} (h : NetLe a b) {loc : TextLoc} {n : Nat} (hf : FedBy a loc n) :
    FedBy b loc n := by
  obtain ⟨k, h1, h2, h3⟩ := hf
  exact ⟨k, h.nodes k h1, by rw [h.data k h1, h2], h.join _ _ h3⟩

theorem Done.nil {D : Design} {W : List Wr} {s : Bld} (h : BInv W s) : Done D W [] s s :=
  ⟨h, NetLe.refl _, ⟨[], by simp⟩, fun _ _ _ h => h, fun _ _ _ h => .inl h, by simp, by simp,
    fun _ _ h => h, fun _ _ h => .inl h, by simp, by simp, by simp, fun _ _ => rfl, by simp⟩

theorem steady_left {l1 l2 : List Deferred} {t : VarTab} {y : Nat} {b : BitRange} {k : Nat}
    (h : (steady (l1 ++ l2) t).lookup y b = some k) : (steady l1 t).lookup y b = some k := by
  rw [steady_some] at h ⊢
  exact ⟨fun b hb => h.1 b (List.mem_append_left _ hb), h.2⟩

theorem steady_right {l1 l2 : List Deferred} {t t' : VarTab} {y : Nat} {b : BitRange} {k : Nat}
    (hs : ∀ y, (∀ b ∈ l1, Clocked b → ∀ w ∈ allWrites b.stmt, w.sym ≠ y) → t' y = t y)
    (h : (steady (l1 ++ l2) t).lookup y b = some k) : (steady l2 t').lookup y b = some k := by
  rw [steady_some] at h ⊢
  refine ⟨fun b hb => h.1 b (List.mem_append_right _ hb), ?_⟩
  have := hs y fun b hb => h.1 b (List.mem_append_left _ hb)
  unfold VarTab.lookup at h ⊢
  rw [this]; exact h.2

theorem Done.trans {D : Design} {W : List Wr} {l1 l2 : List Deferred} {a b c : Bld}
    (ha : BInv W a) (h : Done D W l1 a b) (k : Done D W l2 b c) : Done D W (l1 ++ l2) a c := by
  obtain ⟨q2, hq2⟩ := k.queue
  refine ⟨k.inv, h.net.trans k.net, ?_, fun y p d hd => k.keep y p d (h.keep y p d hd), ?_, ?_, ?_,
    fun y e he => k.old y e (h.old y e he), ?_, ?_, ?_, fun b hb u d hg => ?_, fun y hy => ?_, fun b' hb y p loc hl => ?_⟩
  rotate_left 7
  · rcases List.mem_append.1 hb with hb | hb
    · exact paired_mono k.net (h.ctrl b hb u d hg)
    · exact k.ctrl b hb u d hg
  · rw [k.same y fun b hb => hy b (List.mem_append_right _ hb), h.same y fun b hb => hy b (List.mem_append_left _ hb)]
  · rcases List.mem_append.1 hb with hb | hb
    · obtain ⟨bd, g1, g2, g3, g4⟩ := h.given b' hb y p loc hl
      exact ⟨bd, g1, g2, g3, fun v m hv hm => fedBy_mono k.net (g4 v m hv (steady_left hm))⟩
    · obtain ⟨bd, g1, g2, g3, g4⟩ := k.given b' hb y p loc hl
      exact ⟨bd, g1, g2, g3, fun v m hv hm => g4 v m hv (steady_right h.same hm)⟩
  · obtain ⟨q1, hq1⟩ := h.queue
    exact ⟨q1 ++ q2, by rw [hq2, hq1]; simp⟩
  · intro y p d hd
    rcases k.gain y p d hd with hd | hd
    · rcases h.gain y p d hd with hd | ⟨loc, hl⟩
      · exact .inl hd
      · exact .inr ⟨loc, isAssign_mono k.net hl⟩
    · exact .inr hd
  · intro y p loc
    rw [k.defs, h.defs]
    simp only [List.mem_append, or_and_right, exists_or]
    rw [or_assoc]
  · intro b hb hc y p loc hl
    rcases List.mem_append.1 hb with hb | hb
    · obtain ⟨st, bd, n, g1, g2, g3, g4, g5, g6, g7, g9, g10, g8⟩ := h.regs b hb hc y p loc hl
      exact ⟨st, bd, n, k.net.nodes _ g1, by rw [k.net.data _ g1, g2], g3, k.net.nodes _ g4,
        by rw [k.net.data _ g4, g5], k.net.join _ _ g6, k.old _ _ g7, g9, g10, fun v hv g hg hw => by
          rw [hq2]; exact List.mem_append_left _ (g8 v hv g hg hw)⟩
    · exact k.regs b hb hc y p loc hl
  · intro y e he
    rcases k.vars y e he with he | ⟨b, hb, h1⟩
    · rcases h.vars y e he with he | ⟨b, hb, h1⟩
      · exact .inl he
      · exact .inr ⟨b, List.mem_append_left _ hb, h1⟩
    · exact .inr ⟨b, List.mem_append_right _ hb, h1⟩
  · intro b hb who r Q hu hq hf
    rcases List.mem_append.1 hb with hb | hb
    · obtain ⟨n, g1, g2, g3, g4⟩ := h.uses b hb who r Q hu hq hf
      refine ⟨n, k.net.nodes _ g1, g2, by rw [k.net.data _ g1, g3], ?_, ?_, ?_, ?_⟩
      · intro p tr loc hp ht hl
        obtain ⟨m, m1, m2, m3⟩ := g4.defs p tr loc hp ht hl
        exact ⟨m, k.net.nodes m m1, (k.net.data m m1).trans m2, k.net.join _ _ m3⟩
      · intro hk p hp hw
        obtain ⟨x, hx, h1⟩ := g4.queued hk p hp hw
        exact ⟨x, by
          show x ∈ c.queue
          rw [hq2]; exact List.mem_append_left _ hx, h1⟩
      · intro hk ha hw
        show _ ∈ c.queue
        rw [hq2]; exact List.mem_append_left _ (g4.whole hk ha hw)
      · rintro hk p hp hw m ⟨v, hv, hm⟩
        exact k.net.join _ _ (g4.behind hk p hp hw m ⟨v, hv, steady_left hm⟩)
    · obtain ⟨n, g1, g2, g3, g4⟩ := k.uses b hb who r Q hu hq hf
      refine ⟨n, g1, fun hn => g2 (h.net.nodes n hn), g3, g4.defs, g4.queued, g4.whole, ?_⟩
      rintro hk p hp hw m ⟨v, hv, hm⟩
      exact g4.behind hk p hp hw m ⟨v, hv, steady_right h.same hm⟩
  · intro b' hb y p loc hl
    rcases List.mem_append.1 hb with hb | hb
    · obtain ⟨bd, g1, g2, g3, g4⟩ := h.hook b' hb y p loc hl
      refine ⟨bd, g1, g2, g3, fun pp hpp hcov => ?_⟩
      obtain ⟨n, e, f1, f2, f3, f4, f5, f6⟩ := g4 pp hpp hcov
      exact ⟨n, e, k.net.nodes n f1, fun hc => by rw [k.net.data n f1]; exact f2 hc, fun hc => by
        rw [k.net.data n f1]; exact ⟨(f3 hc).1, fedBy_mono k.net (f3 hc).2.1, k.old _ _ (f3 hc).2.2⟩, k.old _ _ f4, f5, k.net.join _ _ f6⟩
    · obtain ⟨bd, g1, g2, g3, g4⟩ := k.hook b' hb y p loc hl
      refine ⟨bd, g1, g2, g3, fun pp hpp hcov => g4 pp hpp ?_⟩
      obtain ⟨e, he, hc⟩ := hcov
      exact ⟨e, h.old _ _ he, hc⟩

theorem leaves_write {st : Stmt} {y : Nat} {p : Int} {loc : TextLoc} (h : Leaves st y p loc) :
    ∃ w ∈ allWrites st, w.sym = y ∧ InRng w.bounds p := by
  rcases h with h | ⟨_, tr, hr, h⟩
  · obtain ⟨w, hw, h1⟩ := lastAt_hits h
    exact ⟨w, (nbaWrites_sub hw).1, h1.2⟩
  · obtain ⟨w, hw, h1⟩ := lastAt_hits h
    exact ⟨w, runs_all hr w hw, h1.2⟩

theorem sensOf_ok {b : Deferred} (h : PlainEvents b) :
    ∃ sens, sensOf b = .ok sens ∧ (sens ≠ [] ↔ Clocked b) ∧
      (Clocked b → ∀ s e, (⟨s, e⟩ : SensEntry) ∈ sens ↔ ∃ v ∈ blockEvents b, v.signal = some s ∧ v.edge = e) := by
  cases b with
  | procedural k body st => exact sequential_iff_edge_triggered_partial k body h.1 h.2
  | continuous loc a =>
    have hn : ¬ Clocked (.continuous loc a) := by
      rintro ⟨⟨e, he, _⟩, _⟩; cases he
    exact ⟨[], rfl, by simp [hn], fun h => absurd h hn⟩

/-- One block. -/
theorem block_ok {W : List Wr} (hW : Plain W) {s : Bld} (hs : BInv W s) (D : Design)
    {ord : Tracker → List (Nat × Nat)} (hv : Visits ord) {b : Deferred}
    (hsub : ∀ w ∈ allWrites b.stmt, w ∈ W) (hl : live b.stmt = true) (he : PlainEvents b) :
    ∃ s', s.handleBlock D ord b = .ok s' ∧ Done D W [b] s s' ∧
      ∀ y, s.vars y = [] → ∀ e ∈ s'.vars y, ∀ e' ∈ s'.vars y, e.lo = e'.lo → e.hi = e'.hi → e = e' := by
  obtain ⟨sens, a1, a2, a3⟩ := sensOf_ok he
  obtain ⟨d, b1, b2, b3, ⟨q, b4, b5⟩, b6, b7, b8⟩ := dfa_ok hs.ok D (plain_sub hsub hW) hl
  have hv' : ∀ x, x ∈ ord d.trk ↔ x ∈ d.trk.slots := fun x => (hv d.trk).mem_iff
  obtain ⟨ws, c1, cpw, _, c2, c3⟩ := driven_ok b2.trk b2.flow.drv (ord d.trk) (fun x hx => (hv' x).1 hx)
    (((hv d.trk).map _).nodup_iff.2 b2.trk.keys)
  have c3 : ∀ y p n, (∃ w ∈ ws, w.sym = y ∧ InRng w.bounds p ∧ HasN w.drivers n) ↔
      DAt d.trk d.cur.drv y p n := by
    intro y p n
    rw [c3]
    constructor
    · rintro ⟨i, m, h1, h2⟩; exact ⟨i, m, (hv' _).1 h1, h2⟩
    · rintro ⟨i, m, h1, h2⟩; exact ⟨i, m, (hv' _).2 h1, h2⟩
  have hs1 : BInv W ({ s with net := d.net, queue := d.queue } : Bld) := by
    refine ⟨⟨b2.net, ?_, ?_⟩, hs.trk, hs.drv, ?_⟩
    · intro y e he
      obtain ⟨h1, h2⟩ := hs.ok.vars y e he
      exact ⟨b3.nodes _ h1, by simp only [b3.data _ h1]; exact h2⟩
    · intro p hp n hn
      simp only [b4] at hp
      rcases List.mem_append.1 hp with hp | hp
      · exact b3.nodes n (hs.ok.pend p hp n hn)
      · exact (b5 p hp).2 n hn
    · intro y p n hn
      obtain ⟨m, h1, h2⟩ := hs.nodes y p n hn
      exact ⟨m, b3.nodes m h1, h2⟩
  have hnodes : ∀ w ∈ ws, ∀ n, HasN w.drivers n → ∃ loc, IsAssign d.net n loc := by
    intro w hw n hn
    have hp : InRng w.bounds w.bounds.lower := by
      rw [inRng_iff]; simp only [BitRange.lower, BitRange.upper]; omega
    exact b2.flow.assign _ _ _ ((c3 w.sym w.bounds.lower n).1 ⟨w, hw, rfl, hp, hn⟩)
  have hmerge : ∀ s', ({ s with net := d.net, queue := d.queue } : Bld).mergeDrivers D sens ws = .ok s' →
      s.handleBlock D ord b = .ok s' := by
    intro s' h
    rw [handleBlock_eq, a1]
    simp only [b1, Bld.mergeBlock, c1]
    exact h
  have huses : ∀ s' : Bld, NetLe d.net s'.net → (∃ q, s'.queue = d.queue ++ q) →
      ∀ b' ∈ [b], ∀ who r Q, Use Start b'.stmt who r Q → (∃ tr, Q tr) →
      ReadFits (allWrites b'.stmt) r.sym r.bounds → ∃ n ∈ s'.net.g.nodes, n ∉ s.net.g.nodes ∧
        s'.net.data n = who ∧
        Linked ⟨D, steady [b] s.vars, none⟩ { net := s'.net, queue := s'.queue } r n Q := by
    intro s' hn ⟨q', hq'⟩ b' hb who r Q hu hq hf
    rw [List.mem_singleton] at hb
    subst hb
    obtain ⟨n, g1, g2, g3, g4⟩ := b7 who r Q hu hq hf
    refine ⟨n, hn.nodes n g1, g2, by rw [hn.data n g1, g3], ?_, ?_, ?_, ?_⟩
    · intro p tr loc hp ht hl
      obtain ⟨m, m1, m2, m3⟩ := g4.defs p tr loc hp ht hl
      exact ⟨m, hn.nodes m m1, (hn.data m m1).trans m2, hn.join _ _ m3⟩
    · intro hk p hp hw
      obtain ⟨x, hx, h1⟩ := g4.queued hk p hp hw
      exact ⟨x, by
        show x ∈ s'.queue
        rw [hq']; exact List.mem_append_left _ hx, h1⟩
    · intro hk ha hw
      show _ ∈ s'.queue
      rw [hq']; exact List.mem_append_left _ (g4.whole hk ha hw)
    · rintro hk p hp hw m ⟨v, hv, hm⟩
      exact hn.join _ _ (g4.behind hk p hp hw m ⟨v, hv, (steady_some.1 hm).2⟩)
  have hin : ∀ w ∈ ws, DriversIn d.net w := fun w hw x hx n hn => by
    obtain ⟨loc, m, hm, e, _⟩ := hnodes w hw (some n) ⟨x, hx, hn⟩
    cases e; exact hm
  have hsy : ∀ y, (∀ b' ∈ [b], Clocked b' → ∀ w ∈ allWrites b'.stmt, w.sym ≠ y) → sens ≠ [] →
      ∀ w ∈ ws, w.sym ≠ y := by
    intro y hy hse w hw
    obtain ⟨⟨v, hv1, g1, _⟩, _⟩ := (c2 w hw).1
    rw [← g1]
    exact hy b (List.mem_singleton.2 rfl) (a2.1 hse) v hv1
  have hsame : ∀ s', ({ s with net := d.net, queue := d.queue } : Bld).mergeDrivers D sens ws = .ok s' →
      ∀ y, (∀ b' ∈ [b], Clocked b' → ∀ w ∈ allWrites b'.stmt, w.sym ≠ y) → s'.vars y = s.vars y :=
    fun s' h y hy => merge_same (s := { s with net := d.net, queue := d.queue }) ws hs1.ok hin h (hsy y hy)
  have hgiven : ∀ s', ({ s with net := d.net, queue := d.queue } : Bld).mergeDrivers D sens ws = .ok s' →
      NetLe d.net s'.net → ∀ b' ∈ [b], ∀ y p loc, Leaves b'.stmt y p loc → ∃ bd, InRng bd p ∧ bd.left ≤ bd.right ∧
        Fits (allWrites b'.stmt) y bd.lower bd.upper ∧ ∀ v k, (D.kind y = .modportPort ∧ (∀ e, v ∈ D.iface y e) ∨
          D.kind y = .variable ∧ v = (y, bd)) → (steady [b] s.vars).lookup v.1 v.2 = some k → FedBy s'.net loc k := by
    intro s' hm hn b' hb y p loc hlv
    rw [List.mem_singleton] at hb; subst hb
    obtain ⟨n, h1, k, hk, rfl, h2⟩ := (b6 y p loc).2 hlv
    obtain ⟨w, hw, rfl, h3, x, hx, hxn⟩ := (c3 y p (some k)).2 h1
    refine ⟨w.bounds, h3, (c2 w hw).2.2, (c2 w hw).1, fun v m hv hl => ?_⟩
    obtain ⟨q1, q2⟩ := steady_some.1 hl
    refine ⟨k, hn.nodes k hk, by rw [hn.data k hk, h2], merge_to ws hs1.ok hin hm (hsy v.1 q1) q2 w hw x hx k hxn ?_⟩
    rcases hv with ⟨h4, h5⟩ | ⟨h4, h5⟩
    · exact .inl ⟨h4, h5 _⟩
    · exact .inr ⟨h4, h5⟩
  have hctrl : ∀ s' : Bld, NetLe d.net s'.net → ∀ b' ∈ [b], ∀ u d, Inside b'.stmt u d → Paired s'.net u d := by
    intro s' hn b' hb u d hg
    rw [List.mem_singleton] at hb
    subst hb
    exact paired_mono hn (b8 u d hg)
  by_cases hc : Clocked b
  · have hse := a2.2 hc
    obtain ⟨s', ns, k1, k2, k3, k4, k5, k6, k7, k8, k9, k10, k11, k12, k13⟩ :=
      sequential_block (D := D) hse ws hs1.ok (fun w hw x hx n hn => by
        obtain ⟨loc, m, hm, e, _⟩ := hnodes w hw (some n) ⟨x, hx, hn⟩
        cases e; exact hm)
    have hle : NetLe d.net s'.net := ⟨fun n hn => by rw [k3]; exact List.mem_append_left _ hn, k7, k11⟩
    simp only at k8 k9 k10
    have huniq : ∀ y, s.vars y = [] → ∀ e ∈ s'.vars y, ∀ e' ∈ s'.vars y, e.lo = e'.lo → e.hi = e'.hi →
        e = e' := by
      intro y hy e he1 e' he2 h1 h2
      rcases (k12 y e).1 he1 with he1 | ⟨i, n, w, i1, i2, i3, rfl⟩
      · simp only [hy] at he1; cases he1
      rcases (k12 y e').1 he2 with he2 | ⟨j, n', w', j1, j2, j3, rfl⟩
      · simp only [hy] at he2; cases he2
      simp only at h1 h2
      have hij : i = j := by
        obtain ⟨hi, ei⟩ := List.getElem?_eq_some_iff.1 i2
        obtain ⟨hj, ej⟩ := List.getElem?_eq_some_iff.1 j2
        have hrel : ∀ a b (ha : a < ws.length) (hb : b < ws.length), a < b →
            Disjoint_ ws[a] ws[b] := fun a b ha hb hab => List.pairwise_iff_getElem.1 cpw a b ha hb hab
        have hin : InRng w.bounds w.bounds.lower ∧ InRng w'.bounds w.bounds.lower := by
          have g1 : w.bounds.lower ≤ w.bounds.upper := by simp only [BitRange.lower, BitRange.upper]; omega
          rw [inRng_iff, inRng_iff]
          omega
        rcases Nat.lt_trichotomy i j with h | h | h
        · have := hrel i j hi hj h
          rw [ei, ej] at this
          exact absurd hin (this (i3.trans j3.symm) _)
        · exact h
        · have := hrel j i hj hi h
          rw [ei, ej] at this
          exact absurd ⟨hin.2, hin.1⟩ (this (j3.trans i3.symm) _)
      subst hij
      rw [i1] at j1; cases j1
      rw [i2] at j2; cases j2
      rfl
    refine ⟨s', hmerge s' k1, ⟨⟨k2, ?_, ?_, ?_⟩, b3.trans hle, ?_, ?_, ?_, ?_, ?_, ?_, ?_, huses s' hle ?_, ?_, hctrl s' hle,
        hsame s' k1, hgiven s' k1 hle⟩,
      huniq⟩
    · rw [k9]; exact hs.trk
    · rw [k9, k10]; exact hs.drv
    · intro y p n hn
      rw [k9, k10] at hn
      obtain ⟨m, h1, h2⟩ := hs1.nodes y p n hn
      exact ⟨m, hle.nodes m h1, h2⟩
    · exact ⟨q ++ ns.flatMap (clockReads D sens), by rw [k8, b4]; simp⟩
    · rw [k9, k10]; exact fun _ _ _ h => h
    · rw [k9, k10]; exact fun _ _ _ h => .inl h
    · intro y p loc
      rw [k9, k10]
      constructor
      · rintro ⟨n, h1, h2⟩
        exact .inl ⟨n, h1, (isAssign_old (b3.trans hle) (hs.nodes y p n h1)).1 h2⟩
      · rintro (⟨n, h1, h2⟩ | ⟨b', hb', h1, _⟩)
        · exact ⟨n, h1, isAssign_mono (b3.trans hle) h2⟩
        · rw [List.mem_singleton] at hb'; subst hb'; exact absurd hc h1
    · intro b' hb' _ y p loc hlv
      rw [List.mem_singleton] at hb'; subst hb'
      obtain ⟨n, h1, k, hk, rfl, h2⟩ := (b6 y p loc).2 hlv
      obtain ⟨w, hw, rfl, h3, x, hx, hxn⟩ := (c3 y p (some k)).2 h1
      obtain ⟨i, hi, hwi⟩ := List.getElem_of_mem hw
      have hi' : i < ns.length := by rw [k4]; exact hi
      have e1 : ns[i]? = some ns[i] := List.getElem?_eq_getElem hi'
      have e2 : ws[i]? = some w := by rw [List.getElem?_eq_getElem hi, hwi]
      obtain ⟨g1, g2⟩ := k13 i _ w e1 e2
      have hmem : ns[i] ∈ ns := List.getElem_mem hi'
      refine ⟨ns[i], w.bounds, k, by rw [k3]; exact List.mem_append_right _ hmem, g1, h3, hle.nodes k hk,
        by rw [hle.data k hk, h2], g2 x hx k hxn, ?_, (c2 w hw).2.2, (c2 w hw).1, ?_⟩
      · have hlr := (c2 w hw).2.2
        have e3 : w.bounds.lower = w.bounds.left := by simp only [BitRange.lower]; omega
        have e4 : w.bounds.upper = w.bounds.right := by simp only [BitRange.upper]; omega
        rw [← e3, ← e4]
        exact (k12 w.sym _).2 (.inr ⟨i, _, w, e1, e2, rfl, rfl⟩)
      · intro v hv1 g hg hwid
        rw [k8]
        refine List.mem_append_right _ (List.mem_flatMap.2 ⟨_, hmem, mem_clockReads.2
          ⟨⟨g, v.edge⟩, (a3 hc g v.edge).2 ⟨v, hv1, hg, rfl⟩, hwid, rfl⟩⟩)
    · intro y e he'
      exact (k12 y e).2 (.inl he')
    · intro y e he'
      rcases (k12 y e).1 he' with h | ⟨i, n, w, _, h2, h3, _⟩
      · exact .inl h
      · refine .inr ⟨b, List.mem_singleton.2 rfl, hc, ?_⟩
        obtain ⟨⟨v, hv1, g1, _⟩, _⟩ := (c2 w (List.mem_of_getElem? h2)).1
        exact ⟨v, hv1, g1.trans h3⟩
    · exact ⟨_, k8⟩
    · intro b' hb' y p loc hlv
      rw [List.mem_singleton] at hb'; subst hb'
      obtain ⟨n, h1, k, hk, rfl, h2⟩ := (b6 y p loc).2 hlv
      obtain ⟨w, hw, rfl, h3, x, hx, hxn⟩ := (c3 y p (some k)).2 h1
      refine ⟨w.bounds, h3, (c2 w hw).2.2, (c2 w hw).1, fun pp hpp hcov => ?_⟩
      obtain ⟨st, e, g1, _, g2, g3, g4, g5, g6, g7⟩ := register_to_port_partial hse ws hs1.ok
        (fun w hw x hx n hn => by
          obtain ⟨loc, m, hm, e, _⟩ := hnodes w hw (some n) ⟨x, hx, hn⟩
          cases e; exact hm) k1 w hw hpp hcov
      exact ⟨st, e, g2, fun h => absurd hc h, fun _ => ⟨g1, ⟨k, hle.nodes k hk, by rw [hle.data k hk, h2],
        g3 x hx k hxn⟩, by
          have hlr := (c2 w hw).2.2
          have e3 : w.bounds.lower = w.bounds.left := by simp only [BitRange.lower]; omega
          have e4 : w.bounds.upper = w.bounds.right := by simp only [BitRange.upper]; omega
          rw [e3, e4] at g7
          exact g7⟩, g4, g5, g6⟩
  · have hse : sens = [] := Classical.byContradiction fun h => hc (a2.1 h)
    subst hse
    obtain ⟨s', k1, k2, k3, k4, k5, k6⟩ := comb_ok hW D ws hs1 (fun w hw => ⟨fits_sub hsub (c2 w hw).1,
      (c2 w hw).2.1, fun n hn => by
        obtain ⟨loc, m, hm, e, _⟩ := hnodes w hw n hn
        exact ⟨m, hm, e⟩⟩)
    simp only at k3 k4 k5 k6
    have k6 : ∀ y p n, DAt s'.trk s'.drv y p n ↔ DAt s.trk s.drv y p n ∨ DAt d.trk d.cur.drv y p n := by
      intro y p n; rw [k6, c3]
    refine ⟨s', hmerge s' k1, ⟨k2, b3.trans k3, ⟨q, by rw [k5, b4]⟩, ?_, ?_, ?_, ?_, ?_, ?_,
      huses s' k3 ⟨[], by rw [k5]; simp⟩, ?_, hctrl s' k3, hsame s' k1, hgiven s' k1 k3⟩, fun y hy e he' => by rw [k4, hy] at he'; cases he'⟩
    · intro y p n h; exact (k6 y p n).2 (.inl h)
    · intro y p n h
      rcases (k6 y p n).1 h with h | h
      · exact .inl h
      · obtain ⟨loc, h1⟩ := b2.flow.assign y p n h
        exact .inr ⟨loc, isAssign_mono k3 h1⟩
    · intro y p loc
      constructor
      · rintro ⟨n, h1, h2⟩
        rcases (k6 y p n).1 h1 with h | h
        · exact .inl ⟨n, h, (isAssign_old (b3.trans k3) (hs.nodes y p n h)).1 h2⟩
        · obtain ⟨_, m, hm, e, _⟩ := b2.flow.assign y p n h
          exact .inr ⟨b, List.mem_singleton.2 rfl, hc,
            (b6 y p loc).1 ⟨n, h, (isAssign_old k3 ⟨m, hm, e⟩).1 h2⟩⟩
      · rintro (⟨n, h1, h2⟩ | ⟨b', hb', _, h1⟩)
        · exact ⟨n, (k6 y p n).2 (.inl h1), isAssign_mono (b3.trans k3) h2⟩
        · rw [List.mem_singleton] at hb'; subst hb'
          obtain ⟨n, h2, h3⟩ := (b6 y p loc).2 h1
          exact ⟨n, (k6 y p n).2 (.inr h2), isAssign_mono k3 h3⟩
    · intro b' hb' h; rw [List.mem_singleton] at hb'; subst hb'; exact absurd h hc
    · intro y e h; rw [k4]; exact h
    · intro y e h; rw [k4] at h; exact .inl h
    · intro b' hb' y p loc hlv
      rw [List.mem_singleton] at hb'; subst hb'
      obtain ⟨n, h1, k, hk, rfl, h2⟩ := (b6 y p loc).2 hlv
      obtain ⟨w, hw, rfl, h3, x, hx, hxn⟩ := (c3 y p (some k)).2 h1
      refine ⟨w.bounds, h3, (c2 w hw).2.2, (c2 w hw).1, fun pp hpp hcov => ?_⟩
      obtain ⟨e, g1, g2, g3⟩ := (driver_to_port_partial ws hs1.ok
        (fun w hw x hx n hn => by
          obtain ⟨loc, m, hm, e, _⟩ := hnodes w hw (some n) ⟨x, hx, hn⟩
          cases e; exact hm) k1).2 w hw hpp hcov
      exact ⟨k, e, k3.nodes k hk, fun _ => by rw [k3.data k hk, h2], fun h => absurd h hc, by rw [k4]; exact g1, g2,
        g3 x hx k hxn⟩

/-- All blocks. -/
theorem blocks_ok {W : List Wr} (hW : Plain W) (D : Design) {ord : Tracker → List (Nat × Nat)}
    (hv : Visits ord) (bs : List Deferred) : ∀ {s : Bld}, BInv W s →
    (∀ b ∈ bs, (∀ w ∈ allWrites b.stmt, w ∈ W) ∧ live b.stmt = true ∧ PlainEvents b) →
    ∃ s', s.runBlocks D ord bs = .ok s' ∧ Done D W bs s s' := by
  induction bs with
  | nil => intro s hs _; exact ⟨s, rfl, Done.nil hs⟩
  | cons b bs ih =>
    intro s hs hb
    obtain ⟨h1, h2, h3⟩ := hb b List.mem_cons_self
    obtain ⟨s1, a1, a2, _⟩ := block_ok hW hs D hv h1 h2 h3
    obtain ⟨s2, b1, b2⟩ := ih a2.inv fun b' hb' => hb b' (List.mem_cons_of_mem _ hb')
    exact ⟨s2, by simp only [Bld.runBlocks, a1, b1], a2.trans hs b2⟩

/-! ### The builder after Phase 1 -/

theorem started_inv {W : List Wr} (hW : Plain W) {s : Bld} {hist : List (Nat × Rec)}
    (h : Started s hist) (hsub : ∀ w ∈ histWrites hist, w ∈ W) : BInv W s := by
  have key : ∀ (hist : List (Nat × Rec)) (t : Tracker) (drv : List DMap) (t' : Tracker) (drv' : List DMap),
      TrkOk t → DrvOk W t drv → (∀ y p d, DAt t drv y p d → ∃ n ∈ s.net.g.nodes, d = some n) →
      (∀ w ∈ histWrites hist, w ∈ W) →
      (∀ x ∈ hist, x.2.drivers ≠ [] ∧ ∀ d ∈ x.2.drivers, ∃ n ∈ s.net.g.nodes, d.node = some n) →
      t.run drv hist = .ok (t', drv') →
      TrkOk t' ∧ DrvOk W t' drv' ∧ ∀ y p d, DAt t' drv' y p d → ∃ n ∈ s.net.g.nodes, d = some n := by
    intro hist
    induction hist with
    | nil =>
      intro t drv t' drv' h1 h2 h3 _ _ h
      simp only [Tracker.run, Except.ok.injEq, Prod.mk.injEq] at h
      obtain ⟨rfl, rfl⟩ := h
      exact ⟨h1, h2, h3⟩
    | cons x hist ih =>
      obtain ⟨sym, r⟩ := x
      intro t drv t' drv' h1 h2 h3 h4 h5 h
      obtain ⟨hne, hn⟩ := h5 _ List.mem_cons_self
      have hw : (⟨sym, r.bounds, {}, true⟩ : Wr) ∈ W := h4 _ List.mem_cons_self
      have hds : ∃ d, HasN r.drivers d := by
        obtain ⟨d, hd⟩ := List.exists_mem_of_ne_nil _ hne
        exact ⟨d.node, d, hd, rfl⟩
      obtain ⟨drv1, a1, a2, a3, a4⟩ := addDrivers_at hW h1 h2 (fits_write hw) r.drivers hds r.merge
      have hrun : t.run drv ((sym, r) :: hist) = (t.slotFor sym).1.run drv1 hist := by
        have a1' : t.addDrivers drv sym r = .ok ((t.slotFor sym).1, drv1) := a1
        simp only [Tracker.run, a1', bind, Except.bind]
      rw [hrun] at h
      refine ih _ drv1 t' drv' (slotFor_ok h1 sym).1 a2 ?_
        (fun w hw => h4 w (List.mem_cons_of_mem _ hw)) (fun x hx => h5 x (List.mem_cons_of_mem _ hx)) h
      intro y p d hd
      by_cases hy : y = sym
      · subst hy
        rcases (a3 p d).1 hd with ⟨_, _, e, he, hed⟩ | ⟨hd, _⟩
        · obtain ⟨n, h6, h7⟩ := hn e he
          exact ⟨n, h6, hed.symm.trans h7⟩
        · exact h3 _ p d hd
      · exact h3 y p d ((a4 y p d hy).1 hd)
  obtain ⟨g1, g2, g3⟩ := key hist {} [] s.trk s.drv trkOk_empty (drvOk_empty _ _)
    (fun _ _ _ h => absurd h dAt_empty) hsub h.nodes h.run
  exact ⟨h.ok, g1, g2, g3⟩

/-! ### Resolution -/

theorem emit_ok {W : List Wr} {s : Bld} (h : BInv W s) (D : Design) {x : Pending} (hx : x ∈ s.queue) :
    ∃ ds, emitDeps (s.ctx D) x = .ok ds ∧ (∀ d ∈ ds, d.src ∈ s.net.g.nodes ∧ d.tgt ∈ s.net.g.nodes) ∧
      ∀ n, x.node = some n →
        (∀ v, s.vars.lookup x.sym x.bounds = some v → ∃ d ∈ ds, d.src = v ∧ d.tgt = n) ∧
        (s.vars.lookup x.sym x.bounds = none → ∀ p k, InRng x.bounds p →
          DAt s.trk s.drv x.sym p (some k) → ∃ d ∈ ds, d.src = k ∧ d.tgt = n) := by
  cases hn : x.node with
  | none => exact ⟨[], by simp [emitDeps, hn], by simp, by simp⟩
  | some n =>
    have hnn := h.ok.pend x hx n hn
    cases hv : s.vars.lookup x.sym x.bounds with
    | some v =>
      refine ⟨_, by simp only [emitDeps, hn, Bld.ctx, hv]; rfl, ?_, ?_⟩
      · intro d hd
        rw [List.mem_singleton] at hd
        subst hd
        obtain ⟨e, he, h1, _⟩ := varLookup_mem hv
        exact ⟨by show v ∈ _; rw [← h1]; exact (h.ok.vars _ e he).1, hnn⟩
      · rintro _ ⟨⟩
        refine ⟨?_, by simp⟩
        rintro _ ⟨⟩
        exact ⟨_, List.mem_singleton.2 rfl, rfl, rfl⟩
    | none =>
      obtain ⟨out, a1, a2, a3⟩ := intervals_ok h.trk h.drv x.sym x.bounds
      refine ⟨_, by simp only [emitDeps, hn, Bld.ctx, hv, a1]; rfl, ?_, ?_⟩
      · intro d hd
        obtain ⟨iv, hiv, hd⟩ := List.mem_flatMap.1 hd
        obtain ⟨eb, _, ⟨i, hi, hin⟩, hd⟩ := mem_intervalDeps.1 hd
        obtain ⟨p, hp⟩ := a2 iv hiv i hi
        obtain ⟨k, hk, e⟩ := h.nodes _ _ _ hp
        rw [hin] at e; cases e
        exact ⟨hk, by rw [hd]; exact hnn⟩
      · rintro _ ⟨⟩
        refine ⟨by simp, fun _ p k hp hd => ?_⟩
        obtain ⟨iv, hiv, h1, i, hi, hin⟩ := a3 p (some k) hp hd
        cases hint : iv.1.intersection x.bounds with
        | none => exact absurd ⟨h1, hp⟩ (intersection_none hint p)
        | some eb =>
          exact ⟨⟨k, n, some (D.ref x.sym), eb, x.kind⟩, List.mem_flatMap.2 ⟨iv, hiv,
            mem_intervalDeps.2 ⟨eb, hint, ⟨i, hi, hin⟩, rfl⟩⟩, rfl, rfl⟩

theorem resolvable {W : List Wr} {s : Bld} (h : BInv W s) (D : Design) :
    Resolvable (s.ctx D) s.net s.queue := by
  have key : ∀ q : List Pending, (∀ x ∈ q, x ∈ s.queue) → ∃ ds, emitAll (s.ctx D) q = .ok ds ∧
      ∀ d ∈ ds, d.src ∈ s.net.g.nodes ∧ d.tgt ∈ s.net.g.nodes := by
    intro q
    induction q with
    | nil => intro _; exact ⟨[], rfl, by simp⟩
    | cons x q ih =>
      intro hq
      obtain ⟨es, a1, a2⟩ := ih fun y hy => hq y (List.mem_cons_of_mem _ hy)
      obtain ⟨ds, b1, b2, _⟩ := emit_ok h D (hq x List.mem_cons_self)
      refine ⟨ds ++ es, by simp only [emitAll, b1, a1], fun d hd => ?_⟩
      rcases List.mem_append.1 hd with hd | hd
      · exact b2 d hd
      · exact a2 d hd
  exact key s.queue fun _ h => h

/-- Resolution keeps the graph and adds the edges of every pending read. -/
theorem resolve_ok {W : List Wr} {s : Bld} (h : BInv W s) (D : Design) :
    ∃ net', resolveSequential (s.ctx D) s.net s.queue = .ok net' ∧ Reachable net' ∧ NetLe s.net net' ∧
      ∀ x ∈ s.queue, ∀ n, x.node = some n →
        (∀ v, s.vars.lookup x.sym x.bounds = some v → Joined net' v n) ∧
        (s.vars.lookup x.sym x.bounds = none → ∀ p k, InRng x.bounds p →
          DAt s.trk s.drv x.sym p (some k) → Joined net' k n) := by
  obtain ⟨ds, a1, a2⟩ := resolvable h D
  obtain ⟨net', b1, b2, b3, _, _, b6⟩ := deps_le h.ok.reach a2
  refine ⟨net', by simp only [resolveSequential, a1, b1], b2, b3, fun x hx n hn => ?_⟩
  obtain ⟨es, c1, _, c3⟩ := emit_ok h D hx
  have hin : ∀ d ∈ es, Joined net' d.src d.tgt := fun d hd =>
    (b6 _ _).2 (.inr ⟨d, (emitAll_mem a1 d).2 ⟨x, hx, es, c1, hd⟩, rfl, rfl⟩)
  obtain ⟨h1, h2⟩ := c3 n hn
  refine ⟨fun v hv => ?_, fun hv p k hp hd => ?_⟩
  · obtain ⟨d, hd, rfl, rfl⟩ := h1 v hv; exact hin d hd
  · obtain ⟨d, hd', rfl, rfl⟩ := h2 hv p k hp hd; exact hin d hd'

end Verif.Proofs

import Verif.Proofs.Wiring

/-! Helper lemmas for Phase 1: sequences of events, and the driver table at the end. -/
namespace Verif.Proofs
open Verif.Spec Verif.Model Verif.Props

/-! ### Cuts -/

theorem addCuts_ok {r : CutReg} (hr : CutsOk r) (w x : Nat) (l : List Nat) : CutsOk (r.addCuts w x l) ∧
    (∀ y m, r y = some m → ∃ m', (r.addCuts w x l) y = some m' ∧ ∀ k ∈ m, k ∈ m') ∧
    ∀ k ∈ l, 0 < k → k < w → ∃ m, (r.addCuts w x l) x = some m ∧ k ∈ m := by
  unfold CutReg.addCuts
  split
  · rename_i h
    refine ⟨hr, fun y m hm => ⟨m, hm, fun _ h => h⟩, fun k hk => ?_⟩
    cases l with
    | nil => cases hk
    | cons _ _ => cases h
  · refine ⟨?_, ?_, ?_⟩
    · intro y m hm
      dsimp only at hm
      split at hm
      · cases hm; exact sortUnique_strict _
      · exact hr y m hm
    · intro y m hm
      by_cases hy : y = x
      · subst hy
        refine ⟨_, if_pos rfl, fun k hk => ?_⟩
        rw [mem_sortUnique]
        exact List.mem_append_left _ (by simp only [CutReg.at, hm]; exact hk)
      · exact ⟨m, by dsimp only; rw [if_neg hy]; exact hm, fun _ h => h⟩
    · intro k hk h1 h2
      refine ⟨_, if_pos rfl, ?_⟩
      rw [mem_sortUnique]
      exact List.mem_append_right _ (List.mem_filter.2 ⟨hk, by simp [h1, h2]⟩)

theorem recordCut_ok {E : TravEnv} {c : Col} (hc : Fine E.D c) (k : Conn) :
    ∃ r, c.recordCut E k = { c with cuts := r } ∧ CutsOk r ∧
      ∀ y m, c.cuts y = some m → ∃ m', r y = some m' ∧ ∀ k ∈ m, k ∈ m' := by
  have hnil : ∃ r, c = { c with cuts := r } ∧ CutsOk r ∧
      ∀ y m, c.cuts y = some m → ∃ m', r y = some m' ∧ ∀ k ∈ m, k ∈ m' :=
    ⟨c.cuts, rfl, hc.cuts, fun y m h => ⟨m, h, fun _ h => h⟩⟩
  unfold Col.recordCut
  split
  · split
    · obtain ⟨h1, h2, _⟩ := addCuts_ok hc.cuts (E.D.width ‹_›) ‹_› (collectActualCuts c.cuts 0 ‹_›)
      exact ⟨_, rfl, h1, h2⟩
    · exact hnil
  · exact hnil

/-! ### Single events and sequences of events -/

/-- The effect of an event. -/
structure StepEff (E : TravEnv) (ev : Event) (c c' : Col) : Prop where
  fine : Fine E.D c'
  grew : Grew (Makes E.D ev) (· ∈ declares ev) c c'
  blocks : c'.blocks = c.blocks ++ blocksOf [ev]
  boxes : c'.boxes = c.boxes ++ boxesOf [ev]
  hist : ∃ h, c'.hist = c.hist ++ h ∧ ∀ r ∈ h, r.2.merge = false → ∀ x (j : Nat), Covers r x j →
    ∃ q, ev = .port q ∧ Supplies q x j

theorem step_ok {E : TravEnv} {c : Col} (hc : Fine E.D c) {ev : Event} (h : EventOk E.D ev) :
    ∃ c', Col.step E c ev = .ok c' ∧ StepEff E ev c c' := by
  cases ev with
  | port p =>
    obtain ⟨c', a1, a2⟩ := port_ok hc h
    refine ⟨c', a1, a2.fine, a2.grew, by simp [a2.still.blocks, blocksOf], by simp [a2.still.boxes, boxesOf], ?_⟩
    obtain ⟨l, h1, _, _, h2⟩ := a2.hist
    exact ⟨l, h1, fun r hr _ x j hj => ⟨p, rfl, (h2 x j).1 ⟨r, hr, hj⟩⟩⟩
  | «variable» sym ds =>
    obtain ⟨c', a1, a2, a3, a4, a5, _⟩ := variable_ok ds hc h
    exact ⟨c', a1, a2, a3, by simp [a4.blocks, blocksOf], by simp [a4.boxes, boxesOf], [], by simp [a5], by simp⟩
  | block b =>
    exact ⟨_, rfl, ⟨hc.ok, hc.hist, hc.cuts, hc.rng⟩, ⟨NetLe.refl _, fun _ h => .inl h, fun _ _ h => h, fun _ _ => rfl,
      ⟨[], by simp⟩, ⟨[], by simp⟩, fun _ l h => ⟨l, h, fun _ h => h⟩, fun _ _ h => .inl h⟩, rfl, by simp [boxesOf], [], by simp, by simp⟩
  | box p =>
    exact ⟨_, rfl, ⟨hc.ok, hc.hist, hc.cuts, hc.rng⟩, ⟨NetLe.refl _, fun _ h => .inl h, fun _ _ h => h, fun _ _ => rfl,
      ⟨[], by simp⟩, ⟨[], by simp⟩, fun _ l h => ⟨l, h, fun _ h => h⟩, fun _ _ h => .inl h⟩, by simp [blocksOf], rfl, [], by simp, by simp⟩
  | cuts k =>
    obtain ⟨r, h1, h2, h3⟩ := recordCut_ok hc k
    refine ⟨{ c with cuts := r }, by simp only [Col.step, h1], ⟨hc.ok, hc.hist, h2, hc.rng⟩, ⟨NetLe.refl _, fun _ h => .inl h,
      fun _ _ h => h, fun _ _ => rfl, ⟨[], by simp⟩, ⟨[], by simp⟩, h3, fun _ _ h => .inl h⟩, by simp [blocksOf], by simp [boxesOf],
      [], by simp, by simp⟩
  | connect k =>
    obtain ⟨c', R, W, a1, a2, _⟩ := connect_ok hc h
    refine ⟨c', a1, a2.fine, a2.grew.weaken (fun d h => h) (fun _ h => h.elim), by simp [a2.blocks, blocksOf],
      by simp [a2.boxes, boxesOf], ?_⟩
    obtain ⟨l, h1, h2, _⟩ := a2.hist
    refine ⟨l, h1, fun r hr hm => ?_⟩
    rw [(h2 r hr).1] at hm; cases hm

/-- The effect of several events. -/
structure StepsEff (E : TravEnv) (es : List Event) (c c' : Col) : Prop where
  fine : Fine E.D c'
  grew : Grew (fun d => ∃ ev ∈ es, Makes E.D ev d) (fun y => ∃ ev ∈ es, y ∈ declares ev) c c'
  blocks : c'.blocks = c.blocks ++ blocksOf es
  boxes : c'.boxes = c.boxes ++ boxesOf es
  hist : ∃ h, c'.hist = c.hist ++ h ∧ ∀ r ∈ h, r.2.merge = false → ∀ x (j : Nat), Covers r x j →
    ∃ q, .port q ∈ es ∧ Supplies q x j

theorem blocksOf_append (l r : List Event) : blocksOf (l ++ r) = blocksOf l ++ blocksOf r := by
  induction l with
  | nil => rfl
  | cons e l ih => cases e <;> simp [blocksOf, ih]

theorem boxesOf_append (l r : List Event) : boxesOf (l ++ r) = boxesOf l ++ boxesOf r := by
  induction l with
  | nil => rfl
  | cons e l ih => cases e <;> simp [boxesOf, ih]

theorem StepsEff.nil {E : TravEnv} {c : Col} (h : Fine E.D c) : StepsEff E [] c c :=
  ⟨h, Grew.refl _ _ _, by simp [blocksOf], by simp [boxesOf], [], by simp, by simp⟩

theorem StepEff.one {E : TravEnv} {ev : Event} {c c' : Col} (h : StepEff E ev c c') : StepsEff E [ev] c c' := by
  refine ⟨h.fine, h.grew.weaken (fun d h => ⟨ev, by simp, h⟩) (fun y h => ⟨ev, by simp, h⟩), h.blocks, h.boxes, ?_⟩
  obtain ⟨l, h1, h2⟩ := h.hist
  refine ⟨l, h1, fun r hr hm x j hj => ?_⟩
  obtain ⟨q, rfl, hq⟩ := h2 r hr hm x j hj
  exact ⟨q, by simp, hq⟩

theorem StepsEff.trans {E : TravEnv} {l r : List Event} {a b c : Col} (h : StepsEff E l a b)
    (k : StepsEff E r b c) : StepsEff E (l ++ r) a c := by
  refine ⟨k.fine, (h.grew.trans k.grew).weaken ?_ ?_, ?_, ?_, ?_⟩
  · rintro d (⟨e, he, h1⟩ | ⟨e, he, h1⟩)
    · exact ⟨e, List.mem_append_left _ he, h1⟩
    · exact ⟨e, List.mem_append_right _ he, h1⟩
  · rintro d (⟨e, he, h1⟩ | ⟨e, he, h1⟩)
    · exact ⟨e, List.mem_append_left _ he, h1⟩
    · exact ⟨e, List.mem_append_right _ he, h1⟩
  · rw [k.blocks, h.blocks, blocksOf_append]; simp
  · rw [k.boxes, h.boxes, boxesOf_append]; simp
  · obtain ⟨l1, h1, h2⟩ := h.hist
    obtain ⟨l2, k1, k2⟩ := k.hist
    refine ⟨l1 ++ l2, by rw [k1, h1]; simp, fun x hx hm y j hj => ?_⟩
    rcases List.mem_append.1 hx with hx | hx
    · obtain ⟨q, g1, g2⟩ := h2 x hx hm y j hj
      exact ⟨q, List.mem_append_left _ g1, g2⟩
    · obtain ⟨q, g1, g2⟩ := k2 x hx hm y j hj
      exact ⟨q, List.mem_append_right _ g1, g2⟩

theorem steps_ok {E : TravEnv} (es : List Event) : ∀ {c : Col}, Fine E.D c → (∀ ev ∈ es, EventOk E.D ev) →
    ∃ c', Col.steps E c es = .ok c' ∧ StepsEff E es c c' := by
  induction es with
  | nil => intro c hc _; exact ⟨c, rfl, StepsEff.nil hc⟩
  | cons ev es ih =>
    intro c hc h
    obtain ⟨c1, a1, a2⟩ := step_ok hc (h ev List.mem_cons_self)
    obtain ⟨c2, b1, b2⟩ := ih a2.fine fun e he => h e (List.mem_cons_of_mem _ he)
    exact ⟨c2, by simp only [Col.steps, a1, b1], a2.one.trans b2⟩

/-- The states before and after one of the events. -/
theorem steps_at {E : TravEnv} {pre post : List Event} {ev : Event} {c c' : Col} (hc : Fine E.D c)
    (h : ∀ e ∈ pre ++ ev :: post, EventOk E.D e) (hs : Col.steps E c (pre ++ ev :: post) = .ok c') :
    ∃ c0 c1, Col.steps E c pre = .ok c0 ∧ StepsEff E pre c c0 ∧ Col.step E c0 ev = .ok c1 ∧ StepEff E ev c0 c1 ∧
      Col.steps E c1 post = .ok c' ∧ StepsEff E post c1 c' := by
  obtain ⟨c0, a1, a2⟩ := steps_ok pre hc fun e he => h e (List.mem_append_left _ he)
  obtain ⟨c1, b1, b2⟩ := step_ok a2.fine (h ev (by simp))
  obtain ⟨c2, d1, d2⟩ := steps_ok post b2.fine fun e he => h e (by simp [he])
  rw [steps_append, a1] at hs
  simp only [Col.steps, b1, d1] at hs
  cases hs
  exact ⟨c0, c1, a1, a2, b1, b2, d1, d2⟩

theorem fine_start (D : Design) : Fine D {} := by
  refine ⟨⟨⟨[], rfl⟩, ?_, ?_⟩, by simp, ?_, ?_⟩
  · intro y e he; cases he
  · intro x hx; cases hx
  · intro y l hl; cases hl
  · intro y e he; cases he

/-! ### Every symbol is declared once -/

theorem once_split {pre post : List Event} {ev : Event} (h : ((pre ++ ev :: post).flatMap declares).Nodup) {y : Nat}
    (hy : y ∈ declares ev) : (∀ e ∈ pre, y ∉ declares e) ∧ ∀ e ∈ post, y ∉ declares e := by
  simp only [List.flatMap_append, List.flatMap_cons] at h
  rw [List.nodup_append] at h
  obtain ⟨_, h2, h3⟩ := h
  rw [List.nodup_append] at h2
  refine ⟨fun e he hc => ?_, fun e he hc => ?_⟩
  · exact h3 y (List.mem_flatMap.2 ⟨e, he, hc⟩) y (List.mem_append_left _ hy) rfl
  · exact h2.2.2 y hy y (List.mem_flatMap.2 ⟨e, he, hc⟩) rfl

theorem StepsEff.fixed {E : TravEnv} {es : List Event} {c c' : Col} (h : StepsEff E es c c') {y : Nat}
    (hy : ∀ e ∈ es, y ∉ declares e) : c'.b.vars y = c.b.vars y :=
  h.grew.fixed y fun ⟨e, he, hc⟩ => hy e he hc

/-! ### The driver table after a history of recordings -/

theorem run_at {W : List Wr} (hW : Plain W) (hist : List (Nat × Rec)) : ∀ (t : Tracker) (drv : List DMap),
    TrkOk t → DrvOk W t drv → (∀ w ∈ histWrites hist, w ∈ W) → (∀ x ∈ hist, x.2.drivers ≠ []) →
    ∃ t' drv', t.run drv hist = .ok (t', drv') ∧ TrkOk t' ∧ DrvOk W t' drv' ∧
      ∀ y p d, DAt t' drv' y p d ↔
        (DAt t drv y p d ∧ ∀ r ∈ hist, Covers r y p → r.2.merge = true) ∨
        ∃ l1 r l2, hist = l1 ++ r :: l2 ∧ Covers r y p ∧ HasN r.2.drivers d ∧
          ∀ r' ∈ l2, Covers r' y p → r'.2.merge = true := by
  induction hist with
  | nil => intro t drv h1 h2 _ _; exact ⟨t, drv, rfl, h1, h2, by simp⟩
  | cons x hist ih =>
    obtain ⟨sym, r⟩ := x
    intro t drv h1 h2 h3 h4
    have hne := h4 _ List.mem_cons_self
    have hw : (⟨sym, r.bounds, {}, true⟩ : Wr) ∈ W := h3 _ List.mem_cons_self
    have hds : ∃ d, HasN r.drivers d := by
      obtain ⟨d, hd⟩ := List.exists_mem_of_ne_nil _ hne
      exact ⟨d.node, d, hd, rfl⟩
    obtain ⟨drv1, a1, a2, a3, a4⟩ := addDrivers_at hW h1 h2 (fits_write hw) r.drivers hds r.merge
    have a1' : t.addDrivers drv sym r = .ok ((t.slotFor sym).1, drv1) := a1
    obtain ⟨t', drv', b1, b2, b3, b4⟩ := ih _ drv1 (slotFor_ok h1 sym).1 a2
      (fun w hw => h3 w (List.mem_cons_of_mem _ hw)) (fun x hx => h4 x (List.mem_cons_of_mem _ hx))
    refine ⟨t', drv', by simp only [Tracker.run, a1', bind, Except.bind]; exact b1, b2, b3, fun y p d => ?_⟩
    have hone : DAt (t.slotFor sym).1 drv1 y p d ↔ (Covers (sym, r) y p ∧ HasN r.drivers d) ∨
        (DAt t drv y p d ∧ (Covers (sym, r) y p → r.merge = true)) := by
      by_cases hy : y = sym
      · subst hy
        rw [a3]
        simp only [Covers, true_and, inRng_iff]
        grind
      · rw [a4 y p d hy]
        simp only [Covers]
        grind
    rw [b4, hone]
    constructor
    · rintro (⟨⟨h5, h6⟩ | ⟨h5, h6⟩, h7⟩ | ⟨l1, x, l2, rfl, h5⟩)
      · exact .inr ⟨[], _, hist, rfl, h5, h6, h7⟩
      · refine .inl ⟨h5, fun x hx => ?_⟩
        rcases List.mem_cons.1 hx with rfl | hx
        · exact h6
        · exact h7 x hx
      · exact .inr ⟨_ :: l1, x, l2, rfl, h5⟩
    · rintro (⟨h5, h6⟩ | ⟨l1, x, l2, h5, h6, h7, h8⟩)
      · exact .inl ⟨.inr ⟨h5, h6 _ List.mem_cons_self⟩, fun x hx => h6 x (List.mem_cons_of_mem _ hx)⟩
      · cases l1 with
        | nil =>
          simp only [List.nil_append, List.cons.injEq] at h5
          obtain ⟨rfl, rfl⟩ := h5
          exact .inl ⟨.inl ⟨h6, h7⟩, h8⟩
        | cons z l1 =>
          simp only [List.cons_append, List.cons.injEq] at h5
          obtain ⟨rfl, rfl⟩ := h5
          exact .inr ⟨l1, x, l2, rfl, h6, h7, h8⟩

/-- The builder at the end of Phase 1. -/
theorem start_at {D : Design} {c : Col} (hc : Fine D c) (hW : Plain (histWrites c.hist)) :
    ∃ s, c.start = .ok s ∧ Started s c.hist ∧ s.net = c.b.net ∧ s.vars = c.b.vars ∧ s.queue = c.b.queue ∧
      TrkOk s.trk ∧ DrvOk (histWrites c.hist) s.trk s.drv ∧
      ∀ y p d, DAt s.trk s.drv y p d ↔ ∃ l1 r l2, c.hist = l1 ++ r :: l2 ∧ Covers r y p ∧
        HasN r.2.drivers d ∧ ∀ r' ∈ l2, Covers r' y p → r'.2.merge = true := by
  obtain ⟨t, drv, a1, a2, a3, a4⟩ := run_at hW c.hist {} [] trkOk_empty (drvOk_empty _ _) (fun _ h => h)
    fun x hx => (hc.hist x hx).1
  refine ⟨{ c.b with trk := t, drv := drv }, by simp only [Col.start, a1], ⟨⟨hc.ok.reach, hc.ok.vars, hc.ok.pend⟩,
    a1, hc.hist⟩, rfl, rfl, rfl, a2, a3, fun y p d => ?_⟩
  rw [a4]
  constructor
  · rintro (⟨h, _⟩ | h)
    · exact absurd h dAt_empty
    · exact h
  · exact .inr

end Verif.Proofs

import Verif.Proofs.Sensitivity

/-!
Property theorems C36 (edge-triggered blocks), C56 (reads of registers) and C57 (values written by
edge-triggered blocks).
-/
namespace Verif.Props
open Verif.Spec Verif.Model Verif.Proofs

/-! ### C36: which blocks are sequential -/

theorem recordEvents_spec (es : List (Option SigEvent)) (h : ∀ e ∈ es, e ≠ none) :
    ∀ st : Bool × List SensEntry, recordEvents st es = .ok
      (st.1 || (es.filterMap id).any (fun e => decide (e.edge = .none)),
        st.2 ++ (es.filterMap id).filterMap fun e =>
          if e.edge = .none then none else e.signal.map fun s => ⟨s, e.edge⟩) := by
  induction es with
  | nil => intro st; simp [recordEvents]
  | cons e es ih =>
    intro st
    cases e with
    | none => exact absurd rfl (h none List.mem_cons_self)
    | some e =>
      rw [recordEvents, ih (fun x hx => h x (List.mem_cons_of_mem _ hx))]
      by_cases he : e.edge = .none
      · simp [recordEvent, he]
      · cases hs : e.signal <;> simp [recordEvent, he, hs]

/-- The sensitivity of any block: nothing if some event is level-sensitive, else the named signals
of its events with their edges, in order. -/
theorem sensitivity_exact (k : ProcKind) (b : ProcBody) (h : SignalEventsOnly b) :
    ∃ sens, collectSensitivity k b = .ok sens ∧
      ((∃ e ∈ eventsOf k b, e.edge = .none) → sens = []) ∧
      ((∀ e ∈ eventsOf k b, e.edge ≠ .none) →
        sens = (eventsOf k b).filterMap fun e => e.signal.map fun s => ⟨s, e.edge⟩) := by
  by_cases hk : k ≠ .alwaysFF ∧ k ≠ .always
  · refine ⟨[], by simp [collectSensitivity, hk], fun _ => rfl, fun _ => ?_⟩
    have : eventsOf k b = [] := by
      cases k <;> first | rfl | (simp at hk)
    rw [this]; rfl
  · have hev : ∀ t, eventsOf k (.timed t) = match t with
        | .signalEvent e => [e]
        | .eventList es => es.filterMap id
        | .other => [] := by
      intro t
      cases k <;> first | (simp at hk; done) | (cases t <;> rfl)
    cases b with
    | seqBlockOfAssertion =>
      refine ⟨[], by simp [collectSensitivity], fun _ => rfl, fun _ => ?_⟩
      cases k <;> rfl
    | other =>
      refine ⟨[], by simp [collectSensitivity], fun _ => rfl, fun _ => ?_⟩
      cases k <;> rfl
    | timed t =>
      rw [hev]
      simp only [collectSensitivity, hk, ↓reduceIte]
      cases t with
      | other => exact ⟨[], by simp [Timing.events], fun _ => rfl, fun _ => rfl⟩
      | signalEvent e =>
        by_cases he : e.edge = .none
        · exact ⟨[], by simp [Timing.events, recordEvent, he], fun _ => rfl, fun h => by simp [he] at h⟩
        · refine ⟨_, by simp only [Timing.events]; rfl, fun h => by simp [he] at h, fun _ => ?_⟩
          cases hs : e.signal <;> simp [recordEvent, he, hs]
      | eventList es =>
        simp only [Timing.events, recordEvents_spec es h, List.nil_append]
        refine ⟨_, rfl, ?_, ?_⟩
        · rintro ⟨e, he, h1⟩
          have : (es.filterMap id).any (fun e => decide (e.edge = .none)) = true :=
            List.any_eq_true.2 ⟨e, he, by simp [h1]⟩
          simp [this]
        · intro hn
          have : (es.filterMap id).any (fun e => decide (e.edge = .none)) = false := by
            rw [List.any_eq_false]; intro e he; simp [hn e he]
          simp only [this, Bool.or_self, Bool.false_eq_true, if_false]
          generalize es.filterMap id = l at hn ⊢
          induction l with
          | nil => rfl
          | cons a l ih =>
            rw [List.filterMap_cons, List.filterMap_cons,
              ih (fun e he => hn e (List.mem_cons_of_mem _ he)), if_neg (hn a List.mem_cons_self)]

/-- C36, first half: with events that name signals, a block is taken as sequential (its sensitivity
is not empty) exactly when it is edge-triggered, and its sensitivity then lists exactly its events.
The full claim drops `PlainClocks`; it is false (`select_clock_is_combinational`,
`select_event_dropped`). -/
theorem sequential_iff_edge_triggered_partial (k : ProcKind) (b : ProcBody) (h : SignalEventsOnly b)
    (hp : PlainClocks (eventsOf k b)) :
    ∃ sens, collectSensitivity k b = .ok sens ∧ (sens ≠ [] ↔ EdgeTriggered (eventsOf k b)) ∧
      (EdgeTriggered (eventsOf k b) → ∀ s e, (⟨s, e⟩ : SensEntry) ∈ sens ↔
        ∃ v ∈ eventsOf k b, v.signal = some s ∧ v.edge = e) := by
  obtain ⟨sens, h1, h2, h3⟩ := sensitivity_exact k b h
  refine ⟨sens, h1, ?_, ?_⟩
  · constructor
    · intro hne
      have hall : ∀ e ∈ eventsOf k b, e.edge ≠ .none := fun e he hc => hne (h2 ⟨e, he, hc⟩)
      refine ⟨?_, hall⟩
      rw [h3 hall] at hne
      obtain ⟨x, hx⟩ := List.exists_mem_of_ne_nil _ hne
      obtain ⟨e, he, _⟩ := List.mem_filterMap.1 hx
      exact ⟨e, he, hall e he⟩
    · rintro ⟨⟨e, he, hne⟩, hall⟩ hc
      rw [h3 hall] at hc
      obtain ⟨s, hs⟩ := Option.ne_none_iff_exists'.1 (hp e he hne)
      have : (⟨s, e.edge⟩ : SensEntry) ∈ (eventsOf k b).filterMap fun e =>
          e.signal.map fun s => (⟨s, e.edge⟩ : SensEntry) :=
        List.mem_filterMap.2 ⟨e, he, by simp [hs]⟩
      rw [hc] at this; cases this
  · rintro ⟨_, hall⟩ s e
    rw [h3 hall, List.mem_filterMap]
    constructor
    · rintro ⟨v, hv, h4⟩
      obtain ⟨s', h5, h6⟩ := Option.map_eq_some_iff.1 h4
      cases h6
      exact ⟨v, hv, h5, rfl⟩
    · rintro ⟨v, hv, h4, h5⟩
      exact ⟨v, hv, by simp [h4, h5]⟩

/-- `always_ff @(posedge c[0])` is taken as combinational. -/
theorem select_clock_is_combinational :
    collectSensitivity .alwaysFF (.timed (.signalEvent ⟨.posEdge, none⟩)) = .ok [] ∧
    EdgeTriggered (eventsOf .alwaysFF (.timed (.signalEvent ⟨.posEdge, none⟩))) := by
  refine ⟨rfl, ?_, ?_⟩ <;> simp [eventsOf]

/-- `always_ff @(posedge c[0] or negedge r)` is sensitive to `r` only. -/
theorem select_event_dropped :
    collectSensitivity .alwaysFF (.timed (.eventList [some ⟨.posEdge, none⟩, some ⟨.negEdge, some 1⟩]))
      = .ok [⟨1, .negEdge⟩] := by decide

/-- Non-vacuity: `always @(posedge 0 or negedge 1)` and `always @(posedge 0 or 1)`. -/
example :
    SignalEventsOnly (.timed (.eventList [some ⟨.posEdge, some 0⟩, some ⟨.negEdge, some 1⟩])) ∧
    PlainClocks (eventsOf .always
      (.timed (.eventList [some ⟨.posEdge, some 0⟩, some ⟨.negEdge, some 1⟩]))) ∧
    collectSensitivity .always
      (.timed (.eventList [some ⟨.posEdge, some 0⟩, some ⟨.negEdge, some 1⟩])) =
      .ok [⟨0, .posEdge⟩, ⟨1, .negEdge⟩] ∧
    collectSensitivity .always
      (.timed (.eventList [some ⟨.posEdge, some 0⟩, some ⟨.none, some 1⟩])) = .ok [] := by
  refine ⟨?_, ?_, by decide, by decide⟩
  · simp [SignalEventsOnly]
  · intro e he; simp [eventsOf] at he; rcases he with rfl | rfl <;> simp

/-! ### C36: what a sequential block adds -/

theorem joined_mono {net net' : NetGraph} (hr : Reachable net) {ds : List Dep}
    (hn : ∀ d ∈ ds, d.src ∈ net.g.nodes ∧ d.tgt ∈ net.g.nodes)
    (h : net.addDependencies ds = some net') {s t : Nat} (hj : Joined net s t) : Joined net' s t :=
  (dependencies_join hr hn h s t).2 (.inl hj)

theorem joined_congr {a b : NetGraph} (h : ∀ s t, annots a s t = annots b s t) (s t : Nat) :
    Joined a s t ↔ Joined b s t := by rw [joined_iff, joined_iff, h]

theorem mem_clockReads {D : Design} {sens : List SensEntry} {st : Nat} {p : Pending} :
    p ∈ clockReads D sens st ↔ ∃ e ∈ sens, D.width e.signal ≠ 0 ∧
      p = ⟨e.signal, ⟨0, (D.width e.signal : Int) - 1⟩, some st, e.kind⟩ := by
  unfold clockReads
  rw [List.mem_filterMap]
  constructor
  · rintro ⟨e, he, h⟩
    split at h
    · cases h
    · rename_i hw; cases h; exact ⟨e, he, hw, rfl⟩
  · rintro ⟨e, he, hw, rfl⟩
    exact ⟨e, he, by simp [hw]⟩

/-- What merging the ranges `ws` of a sequential block does: one register per range, holding the
range, entered from each driver of the range, waiting for each event of the block, and nothing
recorded in the driver maps. -/
theorem sequential_block {D : Design} {sens : List SensEntry} (hse : sens ≠ []) (ws : List Driven) :
    ∀ {s : Bld}, BldOk s → (∀ w ∈ ws, DriversIn s.net w) →
    ∃ s' ns, s.mergeDrivers D sens ws = .ok s' ∧ BldOk s' ∧
      s'.net.g.nodes = s.net.g.nodes ++ ns ∧ ns.length = ws.length ∧ ns.Nodup ∧
      (∀ n ∈ ns, n ∉ s.net.g.nodes) ∧ (∀ n ∈ s.net.g.nodes, s'.net.data n = s.net.data n) ∧
      s'.queue = s.queue ++ ns.flatMap (clockReads D sens) ∧ s'.trk = s.trk ∧ s'.drv = s.drv ∧
      (∀ a t, Joined s.net a t → Joined s'.net a t) ∧
      (∀ (sym : Nat) (e : Ivl Nat), e ∈ s'.vars sym ↔ e ∈ s.vars sym ∨
        ∃ (i n : Nat) (w : Driven), ns[i]? = some n ∧ ws[i]? = some w ∧ w.sym = sym ∧
          e = ⟨w.bounds.lower, w.bounds.upper, n⟩) ∧
      ∀ (i n : Nat) (w : Driven), ns[i]? = some n → ws[i]? = some w →
        s'.net.data n = .state (D.ref w.sym).name (D.ref w.sym).path (D.ref w.sym).loc w.bounds ∧
        (∀ d ∈ w.drivers, ∀ m, d.node = some m → Joined s'.net m n) := by
  induction ws with
  | nil =>
    intro s hs _
    refine ⟨s, [], rfl, hs, ?_⟩
    simp
  | cons w ws ih =>
    intro s hs hw
    have hemp : sens.isEmpty = false := by cases sens with
      | nil => exact absurd rfl hse
      | cons _ _ => rfl
    obtain ⟨s1, st, net1, h1, h2, h3, h4, h5, h6, h7, h8, h9, h10, h11, h12, h13, h14, h15⟩ :=
      mergeSeq_spec (D := D) (sens := sens) hs (hw w List.mem_cons_self)
    obtain ⟨s', ns, k1, k2, k3, k4, k5, k6, k7, k8, k9, k10, k11, k12, k13⟩ := ih h2 (fun v hv d hd n hn => by
      rw [h4]; exact List.mem_append_left _ (hw v (List.mem_cons_of_mem _ hv) d hd n hn))
    have hst1 : st ∈ s1.net.g.nodes := by rw [h4]; simp
    refine ⟨s', st :: ns, ?_, k2, ?_, by simp [k4], ?_, ?_, ?_, ?_, k9.trans h7, k10.trans h8, ?_, ?_,
      ?_⟩
    · simp only [Bld.mergeDrivers, hemp, Bool.false_eq_true, if_false, h1]
      exact k1
    · rw [k3, h4]; simp
    · exact List.nodup_cons.2 ⟨fun h => k6 st h hst1, k5⟩
    · intro n hn
      rcases List.mem_cons.1 hn with rfl | hn
      · exact h3
      · intro hc; exact k6 n hn (by rw [h4]; exact List.mem_append_left _ hc)
    · intro n hn
      rw [k7 n (by rw [h4]; exact List.mem_append_left _ hn), h5]
      simp only
      rw [if_neg (fun h : n = st => h3 (h ▸ hn))]
    · rw [k8, h9]; simp
    · intro a t hj
      refine k11 a t (joined_mono h11 h14 h15 ?_)
      exact (joined_congr h12 a t).2 hj
    · intro sym e
      rw [k12, h6, varInsert_mem]
      constructor
      · rintro ((h | ⟨rfl, rfl⟩) | ⟨i, n, v, i1, i2, i3, i4⟩)
        · exact .inl h
        · exact .inr ⟨0, st, w, rfl, rfl, rfl, rfl⟩
        · exact .inr ⟨i + 1, n, v, by simpa using i1, by simpa using i2, i3, i4⟩
      · rintro (h | ⟨i, n, v, i1, i2, i3, i4⟩)
        · exact .inl (.inl h)
        · cases i with
          | zero =>
            simp only [List.getElem?_cons_zero, Option.some.injEq] at i1 i2
            subst i1; subst i2
            exact .inl (.inr ⟨i3.symm, i4⟩)
          | succ i => exact .inr ⟨i, n, v, by simpa using i1, by simpa using i2, i3, i4⟩
    · intro i n v hi hv
      cases i with
      | succ i => exact k13 i n v (by simpa using hi) (by simpa using hv)
      | zero =>
        simp only [List.getElem?_cons_zero, Option.some.injEq] at hi hv
        subst hi; subst hv
        refine ⟨?_, ?_⟩
        · rw [k7 st hst1, h5]; simp
        · intro d hd m hm
          refine k11 m st ((dependencies_join h11 h14 h15 m st).2 (.inr ?_))
          refine ⟨⟨m, st, some (D.ref w.sym), w.bounds, .none⟩, ?_, rfl, rfl⟩
          unfold seqDeps
          refine List.mem_append_left _ (List.mem_append_left _ (mem_driverDeps.2 ?_))
          exact ⟨d, hd, hm, rfl, rfl, rfl, rfl⟩

/-- What merging the ranges of a combinational block leaves alone: no node is added, no node changes,
no node is registered, no read is queued. The driver maps get one merge per range. -/
theorem combinational_block {D : Design} (ws : List Driven) :
    ∀ {s s' : Bld}, BldOk s → (∀ w ∈ ws, DriversIn s.net w) → s.mergeDrivers D [] ws = .ok s' →
      BldOk s' ∧ s'.net.g.nodes = s.net.g.nodes ∧ s'.net.data = s.net.data ∧ s'.vars = s.vars ∧
      s'.queue = s.queue ∧
      s.trk.run s.drv (ws.map fun w => (w.sym, ⟨w.bounds, w.drivers, true⟩)) =
        .ok (s'.trk, s'.drv) := by
  induction ws with
  | nil =>
    intro s s' hs _ h
    simp only [Bld.mergeDrivers, Except.ok.injEq] at h
    subst h
    exact ⟨hs, rfl, rfl, rfl, rfl, rfl⟩
  | cons w ws ih =>
    intro s s' hs hw h
    simp only [Bld.mergeDrivers, List.isEmpty_nil, if_true, Bld.mergeComb] at h
    split at h
    · cases h
    rename_i s1 hs1
    split at hs1
    · cases hs1
    rename_i t1 d1 ht1
    have hnodes : ∀ d ∈ hookupDeps D ⟨s.net, s.vars, t1, d1, s.queue⟩ w.sym w.bounds w.drivers ++
        extraDeps D ⟨s.net, s.vars, t1, d1, s.queue⟩ w.sym w.bounds w.drivers,
        d.src ∈ s.net.g.nodes ∧ d.tgt ∈ s.net.g.nodes := by
      intro d hd
      rcases List.mem_append.1 hd with hd | hd
      · obtain ⟨⟨x, hx, hn⟩, _, _, _, port, _, e, he, ht⟩ := mem_hookupDeps hd
        refine ⟨hw w List.mem_cons_self x hx _ hn, ?_⟩
        rw [← ht]; exact (hs.vars _ _ he).1
      · obtain ⟨⟨x, hx, hn⟩, _, _, hh⟩ := mem_extraDeps hd
        refine ⟨hw w List.mem_cons_self x hx _ hn, ?_⟩
        rcases hh with ⟨_, _, _, _, v, _, hv, _⟩ | ⟨_, hv, _⟩
        · obtain ⟨e, he, h8, _⟩ := varLookup_mem hv
          rw [← h8]; exact (hs.vars _ _ he).1
        · obtain ⟨e, he, h8, _⟩ := varLookup_mem hv
          rw [← h8]; exact (hs.vars _ _ he).1
    obtain ⟨net2, k1, _, k2, k3, k4, _⟩ := addDeps_spec
      (s := ⟨s.net, s.vars, t1, d1, s.queue⟩) hs.reach hnodes
    rw [k1] at hs1
    cases hs1
    simp only at k3 k4
    have hs2 : BldOk ⟨net2, s.vars, t1, d1, s.queue⟩ := by
      refine ⟨k2, ?_, ?_⟩
      · intro sym e he; simp only [k3, k4]; exact hs.vars sym e he
      · intro p hp n hn; simp only [k4]; exact hs.pend p hp n hn
    obtain ⟨g1, g2, g3, g4, g5, g6⟩ := ih hs2 (fun v hv d hd n hn => by
      simp only [k4]; exact hw v (List.mem_cons_of_mem _ hv) d hd n hn) h
    refine ⟨g1, g2.trans k4, g3.trans k3, g4, g5, ?_⟩
    simp only [List.map_cons, Tracker.run, ht1, bind, Except.bind]
    exact g6

/-- C36: with events that name signals (of non-zero width), a block that is edge-triggered gets one
new register per driven range, holding that range of that signal, and the reads waiting for a
register are exactly the block's events; a block that is not gets no node at all. The full claim
drops `PlainClocks`. -/
theorem edge_triggered_registers_partial {D : Design} {s : Bld} {k : ProcKind} {b : ProcBody}
    {order : List (Nat × Nat)} {bdrv : List DMap} {ws : List Driven} (h : SignalEventsOnly b)
    (hp : PlainClocks (eventsOf k b))
    (hwid : ∀ e ∈ eventsOf k b, ∀ g, e.signal = some g → D.width g ≠ 0)
    (hs : BldOk s) (hd : drivenOf bdrv order = .ok ws) (hw : ∀ w ∈ ws, DriversIn s.net w) :
    (EdgeTriggered (eventsOf k b) → ∃ s' ns, s.finishBlock D k b order bdrv = .ok s' ∧ BldOk s' ∧
      s'.net.g.nodes = s.net.g.nodes ++ ns ∧ ns.Nodup ∧ (∀ n ∈ ns, n ∉ s.net.g.nodes) ∧
      ns.length = ws.length ∧
      (∀ (i n : Nat) (w : Driven), ns[i]? = some n → ws[i]? = some w →
        s'.net.data n = .state (D.ref w.sym).name (D.ref w.sym).path (D.ref w.sym).loc w.bounds ∧
        ∀ d ∈ w.drivers, ∀ m, d.node = some m → Joined s'.net m n) ∧
      ∀ n ∈ ns, ∀ g e, Waiting s'.queue n g e ↔
        ∃ v ∈ eventsOf k b, v.signal = some g ∧ v.edge = e) ∧
    (¬ EdgeTriggered (eventsOf k b) → ∀ s', s.finishBlock D k b order bdrv = .ok s' →
      s'.net.g.nodes = s.net.g.nodes ∧ s'.net.data = s.net.data ∧ s'.queue = s.queue) := by
  obtain ⟨sens, h1, h2, h3⟩ := sequential_iff_edge_triggered_partial k b h hp
  constructor
  · intro het
    obtain ⟨s', ns, k1, k2, k3, k4, k5, k6, _, k8, _, _, _, _, k13⟩ :=
      sequential_block (D := D) (h2.2 het) ws hs hw
    refine ⟨s', ns, by simp [Bld.finishBlock, h1, hd, k1], k2, k3, k5, k6, k4,
      k13, ?_⟩
    intro n hn g e
    rw [← h3 het]
    unfold Waiting
    rw [k8]
    constructor
    · rintro ⟨p, hp, q1, q2, q3⟩
      rcases List.mem_append.1 hp with hp | hp
      · exact absurd (hs.pend p hp n q1) (k6 n hn)
      · obtain ⟨m, _, hp⟩ := List.mem_flatMap.1 hp
        obtain ⟨x, hx, _, rfl⟩ := mem_clockReads.1 hp
        simp only at q2 q3
        rw [← q2, ← q3]
        exact hx
    · intro hx
      obtain ⟨v, hv, v1, _⟩ := (h3 het g e).1 hx
      exact ⟨_, List.mem_append_right _ (List.mem_flatMap.2 ⟨n, hn,
        mem_clockReads.2 ⟨_, hx, hwid v hv g v1, rfl⟩⟩), rfl, rfl, rfl⟩
  · intro hne s' hf
    have : sens = [] := Classical.byContradiction fun hc => hne (h2.1 hc)
    subst this
    simp only [Bld.finishBlock, h1, hd] at hf
    obtain ⟨_, g2, g3, _, g5, _⟩ := combinational_block ws hs hw hf
    exact ⟨g2, g3, g5⟩

/-- C36: the register of one driven range is entered from exactly the drivers of the range, each
edge carrying exactly the bits of the range (of those the driver holds, if it holds any). -/
theorem register_data_exact {D : Design} (hD : DesignOk D) {s : Bld} {sens : List SensEntry}
    {w : Driven} (hs : BldOk s) (hl : DriversIn s.net w) :
    ∃ s' st, s.mergeSeq D sens w.sym w.bounds w.drivers = .ok s' ∧ st ∉ s.net.g.nodes ∧
      s'.net.g.nodes = s.net.g.nodes ++ [st] ∧
      ∀ m, (Joined s'.net m st ↔ ∃ d ∈ w.drivers, d.node = some m) ∧
        ∀ p i, Carried s'.net m st p i ↔ (∃ d ∈ w.drivers, d.node = some m) ∧
          p = (D.ref w.sym).path ∧ Asks s.net ⟨m, st, some (D.ref w.sym), w.bounds, .none⟩ p i := by
  obtain ⟨s1, st, net1, h1, h2, h3, h4, h5, h6, h7, h8, h9, h10, h11, h12, h13, h14, h15⟩ :=
    mergeSeq_spec (D := D) (sens := sens) hs hl
  refine ⟨s1, st, h1, h3, h4, ?_⟩
  have hreg : ∀ sym, sym ≠ w.sym → ∀ e ∈ s1.vars sym, e.val ≠ st := by
    intro sym hne e he hc
    rw [h6] at he
    rcases varInsert_mem.1 he with he | ⟨rfl, _⟩
    · exact h3 (hc ▸ (hs.vars sym e he).1)
    · exact hne rfl
  have hto : ∀ d ∈ seqDeps D ⟨net1, s1.vars, s.trk, s.drv, s1.queue⟩ st w.sym w.bounds w.drivers,
      d.tgt = st → (∃ x ∈ w.drivers, x.node = some d.src) ∧
        d = ⟨d.src, st, some (D.ref w.sym), w.bounds, .none⟩ := by
    intro d hd ht
    unfold seqDeps at hd
    simp only [List.mem_append] at hd
    rcases hd with (hd | hd) | hd
    · obtain ⟨x, hx, e1, e2, e3, e4, e5⟩ := mem_driverDeps.1 hd
      refine ⟨⟨x, hx, e1⟩, ?_⟩
      cases d; simp_all
    · obtain ⟨_, _, _, _, port, e5, e, he, e6⟩ := mem_hookupDeps hd
      exact absurd (e6.trans ht) (hreg port (hD.port_ne _ _ e5) e he)
    · obtain ⟨e1, e2, e3, hh⟩ := mem_extraDeps hd
      rcases hh with ⟨q1, _, _, _, v, q2, q3, _⟩ | ⟨_, _, q3⟩
      · obtain ⟨e, he, q4, _⟩ := varLookup_mem q3
        have hne : v.1 ≠ w.sym := by
          intro hc
          have := hD.iface_var _ _ v q2
          rw [hc, q1] at this; cases this
        exact absurd (q4.trans ht) (hreg _ hne e he)
      · refine ⟨e1, ?_⟩
        rw [ht] at q3
        have : d.bounds = w.bounds := by
          rw [q3]; simp only [h10, h5]; simp [NodeData.bounds]
        cases d; simp_all
  have hfrom : ∀ x ∈ w.drivers, ∀ m, x.node = some m →
      (⟨m, st, some (D.ref w.sym), w.bounds, .none⟩ : Dep) ∈
        seqDeps D ⟨net1, s1.vars, s.trk, s.drv, s1.queue⟩ st w.sym w.bounds w.drivers := by
    intro x hx m hm
    unfold seqDeps
    exact List.mem_append_left _ (List.mem_append_left _
      (mem_driverDeps.2 ⟨x, hx, hm, rfl, rfl, rfl, rfl⟩))
  intro m
  have hnone : annots net1 m st = [] := by rw [h12, h13 m st (.inr rfl)]
  constructor
  · rw [dependencies_join h11 h14 h15 m st, joined_iff, hnone]
    constructor
    · rintro (h | ⟨d, hd, rfl, ht⟩)
      · exact absurd rfl h
      · exact (hto d hd ht).1
    · rintro ⟨x, hx, hm⟩
      exact .inr ⟨_, hfrom x hx m hm, rfl, rfl⟩
  · intro p i
    have ho : OnlyFor net1 m st (D.ref w.sym).path := by
      rw [onlyFor_iff, hnone]; intro a ha; cases ha
    have ha : AskOnly (seqDeps D ⟨net1, s1.vars, s.trk, s.drv, s1.queue⟩ st w.sym w.bounds w.drivers)
        m st (D.ref w.sym).path := by
      intro d hd _ ht
      exact ⟨D.ref w.sym, by rw [(hto d hd ht).2], rfl⟩
    obtain ⟨net2, g1, g2⟩ := dependencies_exact_partial h11 h14 ho ha
    rw [h15] at g1; cases g1
    rw [g2, carried_iff, hnone]
    have hdata : ∀ m, m ∈ s.net.g.nodes → net1.data m = s.net.data m := by
      intro m hm
      rw [h10, h5]; simp only
      rw [if_neg (fun h : m = st => h3 (h ▸ hm))]
    have hasks : ∀ d : Dep, d.src ∈ s.net.g.nodes → (Asks net1 d p i ↔ Asks s.net d p i) := by
      intro d hd
      unfold Asks
      rw [hdata _ hd]
    constructor
    · rintro (⟨a, ha, _⟩ | ⟨d, hd, rfl, ht, hask⟩)
      · cases ha
      · obtain ⟨⟨x, hx, hm⟩, heq⟩ := hto d hd ht
        refine ⟨⟨x, hx, hm⟩, ?_, ?_⟩
        · obtain ⟨⟨r, h, h'⟩, _⟩ := hask
          rw [heq] at h; cases h; exact h'.symm
        · rw [← heq]; exact (hasks d (hl x hx _ hm)).1 hask
    · rintro ⟨⟨x, hx, hm⟩, _, hask⟩
      exact .inr ⟨_, hfrom x hx m hm, rfl, rfl, (hasks ⟨m, st, _, _, _⟩ (hl x hx _ hm)).2 hask⟩

/-! ### C36: the ranges a block drives -/

/-- The ranges merged for a block are the block's driver intervals with their lists. -/
theorem drivenOf_exact {t : Tracker} {drv : List DMap} {hist : List (Nat × Rec)}
    (ht : TracksAll t drv hist) (order : List (Nat × Nat)) (ho : ∀ x ∈ order, x ∈ t.slots) :
    ∃ ws, drivenOf drv order = .ok ws ∧ ∀ w, w ∈ ws ↔ ∃ i m e, (w.sym, i) ∈ order ∧
      drv[i]? = some m ∧ e ∈ m.ivls ∧ w.bounds = ⟨e.lo, e.hi⟩ ∧
      m.lists.get e.val = some w.drivers := by
  induction order with
  | nil => exact ⟨[], rfl, by simp⟩
  | cons x order ih =>
    obtain ⟨sym, i⟩ := x
    obtain ⟨ws, h1, h2⟩ := ih fun x hx => ho x (List.mem_cons_of_mem _ hx)
    obtain ⟨m, hm, htm⟩ := ht.some_ (sym, i) (ho _ List.mem_cons_self)
    simp only at hm htm
    obtain ⟨vs, h3, h4, h5⟩ := mapM_ok (f := fun e : Ivl Nat => (do
        let l ← m.getList e.val
        return (⟨sym, ⟨e.lo, e.hi⟩, l⟩ : Driven) : Except Fault Driven))
      (P := fun e w => w.sym = sym ∧ w.bounds = ⟨e.lo, e.hi⟩ ∧
        m.lists.get e.val = some w.drivers)
      m.ivls (by
        intro e he
        obtain ⟨l, hl⟩ := htm.inv.live e he
        exact ⟨⟨sym, ⟨e.lo, e.hi⟩, l⟩,
          by simp only [getList_ok hl, bind, Except.bind, pure, Except.pure], rfl, rfl, hl⟩)
    refine ⟨vs ++ ws, by simp only [drivenOf, h1, hm]; rw [h3], ?_⟩
    intro w
    rw [List.mem_append, h2]
    constructor
    · rintro (hw | ⟨j, m', e, g1, g2, g3, g4, g5⟩)
      · obtain ⟨e, he, q1, q2, q3⟩ := h5 w hw
        exact ⟨i, m, e, by rw [q1]; exact List.mem_cons_self, hm, he, q2, q3⟩
      · exact ⟨j, m', e, List.mem_cons_of_mem _ g1, g2, g3, g4, g5⟩
    · rintro ⟨j, m', e, g1, g2, g3, g4, g5⟩
      rcases List.mem_cons.1 g1 with g1 | g1
      · cases g1
        rw [hm] at g2; cases g2
        obtain ⟨w', hw', q1, q2, q3⟩ := h4 e g3
        have : w' = w := by
          rw [g5, Option.some.injEq] at q3
          cases w; cases w'; simp_all
        exact .inl (this ▸ hw')
      · exact .inr ⟨j, m', e, g1, g2, g3, g4, g5⟩

theorem mapOk_point {α : Type} {m : List (Ivl α)} (h : MapOk m) {a b : Ivl α} (ha : a ∈ m)
    (hb : b ∈ m) {p : Int} (hpa : a.lo ≤ p ∧ p ≤ a.hi) (hpb : b.lo ≤ p ∧ p ≤ b.hi) : a = b := by
  induction m with
  | nil => cases ha
  | cons c m ih =>
    have h2 := (List.pairwise_cons.1 h.2)
    rcases List.mem_cons.1 ha with ha' | ha' <;> rcases List.mem_cons.1 hb with hb' | hb'
    · rw [ha', hb']
    · have := h2.1 b hb'; rw [← ha'] at this; omega
    · have := h2.1 a ha'; rw [← hb'] at this; omega
    · exact ih ⟨fun x hx => h.1 x (List.mem_cons_of_mem _ hx), h2.2⟩ ha' hb'

/-- C36, from the recordings of the block (partial, the condition of C28): the merged ranges cover
exactly the bits the block assigns, and give for each bit its last drivers. -/
theorem driven_bits_partial {hist : List (Nat × Rec)} (hr : ∀ s, InRange (histOf hist s))
    (hn : ∀ s, NeverSplits (histOf hist s)) :
    ∃ t drv, ({} : Tracker).run [] hist = .ok (t, drv) ∧
      ∀ order : List (Nat × Nat), (∀ x, x ∈ order ↔ x ∈ t.slots) →
      ∃ ws, drivenOf drv order = .ok ws ∧ ∀ (sym : Nat) (p : Int),
        ((∃ w ∈ ws, w.sym = sym ∧ InRng w.bounds p) ↔ ∃ r ∈ histOf hist sym, r.Covers p) ∧
        (∀ w ∈ ws, ∀ v ∈ ws, w.sym = sym → v.sym = sym → InRng w.bounds p → InRng v.bounds p →
          w = v) ∧
        ∀ n, (∃ w ∈ ws, w.sym = sym ∧ InRng w.bounds p ∧ ∃ d ∈ w.drivers, d.node = n) ↔
          LastDriver (histOf hist sym) p n := by
  obtain ⟨t, drv, hrun, ht⟩ := tracksAll_run hist {} [] []
    ⟨by simp, by simp, by simp, by simp, by simp, by simp [histOf], by simp⟩
    (by simpa using hr) (by simpa using hn)
  simp only [List.nil_append] at ht
  refine ⟨t, drv, hrun, fun order ho => ?_⟩
  obtain ⟨ws, h1, h2⟩ := drivenOf_exact ht order fun x hx => (ho x).1 hx
  refine ⟨ws, h1, fun sym p => ?_⟩
  cases hg : t.getSlot sym with
  | none =>
    have hno : ∀ w ∈ ws, w.sym ≠ sym := by
      intro w hw he
      obtain ⟨i, _, _, g1, _⟩ := (h2 w).1 hw
      exact getSlot_none hg (List.mem_map.2 ⟨_, (ho _).1 g1, he⟩)
    rw [ht.none_ sym (getSlot_none hg)]
    refine ⟨⟨?_, by simp⟩, fun w hw _ _ h => absurd h (hno w hw), fun n => ⟨?_, ?_⟩⟩
    · rintro ⟨w, hw, h, _⟩; exact absurd h (hno w hw)
    · rintro ⟨w, hw, h, _⟩; exact absurd h (hno w hw)
    · rintro ⟨pre, r, post, h, _⟩; simp at h
  | some i =>
    have hmem := getSlot_mem hg
    obtain ⟨m, hm, htm⟩ := ht.some_ _ hmem
    simp only at hm htm
    have hin : ∀ e ∈ m.ivls, (InRng ⟨e.lo, e.hi⟩ p ↔ e.lo ≤ p ∧ p ≤ e.hi) := by
      intro e he
      have := htm.inv.ok.1 e he
      rw [inRng_iff]
      simp only [BitRange.lower, BitRange.upper]
      omega
    have hws : ∀ w, w ∈ ws ∧ w.sym = sym ↔ w.sym = sym ∧ ∃ e ∈ m.ivls, w.bounds = ⟨e.lo, e.hi⟩ ∧
        m.lists.get e.val = some w.drivers := by
      intro w
      rw [h2]
      constructor
      · rintro ⟨⟨j, m', e, g1, g2, g3, g4, g5⟩, rfl⟩
        have := getSlot_of_mem ht.keys ((ho _).1 g1)
        rw [hg] at this; cases this
        rw [hm] at g2; cases g2
        exact ⟨rfl, e, g3, g4, g5⟩
      · rintro ⟨rfl, e, g3, g4, g5⟩
        exact ⟨⟨i, m, e, (ho _).2 hmem, hm, g3, g4, g5⟩, rfl⟩
    refine ⟨?_, ?_, fun n => ?_⟩
    · rw [← htm.cov]
      constructor
      · rintro ⟨w, hw, hsy, hp⟩
        obtain ⟨_, e, he, hb, _⟩ := (hws w).1 ⟨hw, hsy⟩
        rw [hb] at hp
        exact ⟨e, he, (hin e he).1 hp⟩
      · rintro ⟨e, he, hp⟩
        obtain ⟨l, hl⟩ := htm.inv.live e he
        obtain ⟨q1, q2⟩ := (hws ⟨sym, ⟨e.lo, e.hi⟩, l⟩).2 ⟨rfl, e, he, rfl, hl⟩
        exact ⟨_, q1, q2, (hin e he).2 hp⟩
    · intro w hw v hv hsw hsv hpw hpv
      obtain ⟨_, e, he, hb, hl⟩ := (hws w).1 ⟨hw, hsw⟩
      obtain ⟨_, e', he', hb', hl'⟩ := (hws v).1 ⟨hv, hsv⟩
      rw [hb] at hpw
      rw [hb'] at hpv
      have heq : e = e' := mapOk_point htm.inv.ok he he' ((hin e he).1 hpw) ((hin e' he').1 hpv)
      subst heq
      rw [hl, Option.some.injEq] at hl'
      cases w; cases v; simp_all
    · rw [← htm.drv]
      constructor
      · rintro ⟨w, hw, hsy, hp, hd⟩
        obtain ⟨_, e, he, hb, hl⟩ := (hws w).1 ⟨hw, hsy⟩
        rw [hb] at hp
        exact ⟨e, he, ((hin e he).1 hp).1, ((hin e he).1 hp).2, _, hl, hd⟩
      · rintro ⟨e, he, p1, p2, l, hl, hd⟩
        obtain ⟨q1, q2⟩ := (hws ⟨sym, ⟨e.lo, e.hi⟩, l⟩).2 ⟨rfl, e, he, rfl, hl⟩
        exact ⟨_, q1, q2, (hin e he).2 ⟨p1, p2⟩, hd⟩

/-- C36, end to end (partial, conditions of both theorems above): every bit an edge-triggered block
assigns is in a new register for that signal, entered from each of the bit's last drivers. -/
theorem assigned_bit_registered_partial {D : Design} {s : Bld} {k : ProcKind} {b : ProcBody}
    (h : SignalEventsOnly b) (hp : PlainClocks (eventsOf k b))
    (het : EdgeTriggered (eventsOf k b)) (hs : BldOk s) {hist : List (Nat × Rec)}
    (hr : ∀ s, InRange (histOf hist s)) (hn : ∀ s, NeverSplits (histOf hist s))
    (hin : ∀ x ∈ hist, ∀ d ∈ x.2.drivers, ∀ n, d.node = some n → n ∈ s.net.g.nodes) :
    ∃ t drv, ({} : Tracker).run [] hist = .ok (t, drv) ∧
      ∀ order : List (Nat × Nat), (∀ x, x ∈ order ↔ x ∈ t.slots) →
      ∃ s', s.finishBlock D k b order drv = .ok s' ∧
        ∀ (sym : Nat) (p : Int), (∃ r ∈ histOf hist sym, r.Covers p) →
        ∃ st bd, st ∉ s.net.g.nodes ∧ st ∈ s'.net.g.nodes ∧
          s'.net.data st = .state (D.ref sym).name (D.ref sym).path (D.ref sym).loc bd ∧
          InRng bd p ∧ ∀ n, LastDriver (histOf hist sym) p (some n) → Joined s'.net n st := by
  obtain ⟨t, drv, hrun, hall⟩ := driven_bits_partial hr hn
  refine ⟨t, drv, hrun, fun order ho => ?_⟩
  obtain ⟨ws, hws, hbits⟩ := hall order ho
  have hw : ∀ w ∈ ws, DriversIn s.net w := by
    intro w hw d hd n hn
    have hp : InRng w.bounds w.bounds.lower := by
      rw [inRng_iff]; simp only [BitRange.lower, BitRange.upper]; omega
    obtain ⟨pre, r, post, e, _, ⟨d', hd', hn'⟩, _⟩ :=
      ((hbits w.sym w.bounds.lower).2.2 (some n)).1 ⟨w, hw, rfl, hp, d, hd, hn⟩
    have hrm : r ∈ histOf hist w.sym := by rw [e]; simp
    unfold histOf at hrm
    obtain ⟨x, hx, rfl⟩ := List.mem_map.1 hrm
    exact hin x (List.mem_filter.1 hx).1 d' hd' n hn'
  obtain ⟨sens, h1, h2, h3⟩ := sequential_iff_edge_triggered_partial k b h hp
  obtain ⟨s', ns, k1, k2, k3, k4, k5, k6, _, _, _, _, _, _, k13⟩ :=
    sequential_block (D := D) (h2.2 het) ws hs hw
  refine ⟨s', by simp [Bld.finishBlock, h1, hws, k1], fun sym p hc => ?_⟩
  obtain ⟨b1, b2, b3⟩ := hbits sym p
  obtain ⟨w, hwm, hsy, hpw⟩ := b1.2 hc
  obtain ⟨i, hi⟩ := List.getElem?_of_mem hwm
  have hlt : i < ns.length := by rw [k4]; exact (List.getElem?_eq_some_iff.1 hi).1
  have hst : ns[i]? = some ns[i] := List.getElem?_eq_getElem hlt
  have hmem : ns[i] ∈ ns := List.getElem_mem hlt
  obtain ⟨g1, g2⟩ := k13 i _ w hst hi
  rw [hsy] at g1
  refine ⟨ns[i], w.bounds, k6 _ hmem, by rw [k3]; exact List.mem_append_right _ hmem, g1, hpw, ?_⟩
  intro n hl
  obtain ⟨v, hv, hsv, hpv, d, hd, hdn⟩ := (b3 _).2 hl
  have := b2 w hwm v hv hsy hsv hpw hpv
  subst this
  exact g2 d hd n hdn

/-! ### C56: reads of registers -/

theorem varLookup_unique {t : VarTab} {sym n : Nat} {b : BitRange} (hasc : b.left ≤ b.right)
    (h : (⟨b.left, b.right, n⟩ : Ivl Nat) ∈ t sym)
    (hu : ∀ e ∈ t sym, e.lo = b.left → e.hi = b.right → e.val = n) : t.lookup sym b = some n := by
  cases hc : t.lookup sym b with
  | some m =>
    obtain ⟨e, he, h1, h2⟩ := varLookup_mem hc
    cases b; simp only [BitRange.mk.injEq] at h2
    rw [← h1, hu e he h2.1 h2.2]
  | none =>
    unfold VarTab.lookup at hc
    rw [Option.map_eq_none_iff, List.find?_eq_none] at hc
    refine absurd ?_ (hc ⟨b.left, b.right, n⟩ (List.mem_filter.2 ⟨h, ?_⟩))
    · simp
    · simp only [Ivl.hits, BitRange.lower, BitRange.upper, Bool.and_eq_true]
      refine ⟨decide_eq_true ?_, decide_eq_true ?_⟩ <;> omega

/-- C56: a read of exactly the range of a register is connected to the register, if no other node is
registered for that range of the signal. The full claim is that a read of any range overlapping the
register is; it is false (`partial_register_read_lost`). -/
theorem register_read_partial {D : Design} {sens : List SensEntry} (hse : sens ≠ [])
    {ws : List Driven} {s : Bld} (hs : BldOk s) (hw : ∀ w ∈ ws, DriversIn s.net w) {i : Nat}
    {w : Driven} (hi : ws[i]? = some w) (hasc : w.bounds.left ≤ w.bounds.right)
    (hold : ∀ e ∈ s.vars w.sym, ¬ (e.lo = w.bounds.left ∧ e.hi = w.bounds.right))
    (hnew : ∀ (j : Nat) (v : Driven), ws[j]? = some v → v.sym = w.sym →
      v.bounds.lower = w.bounds.left → v.bounds.upper = w.bounds.right → j = i) (n : Nat)
    (k : EdgeKind) :
    ∃ s' st, s.mergeDrivers D sens ws = .ok s' ∧
      s'.net.data st = .state (D.ref w.sym).name (D.ref w.sym).path (D.ref w.sym).loc w.bounds ∧
      emitDeps ⟨s'.vars, s'.trk, s'.drv, D.ref⟩ ⟨w.sym, w.bounds, some n, k⟩ =
        .ok [⟨st, n, some (D.ref w.sym), w.bounds, k⟩] := by
  obtain ⟨s', ns, k1, k2, k3, k4, k5, k6, _, k8, _, _, _, k12, k13⟩ :=
    sequential_block (D := D) hse ws hs hw
  have hlt : i < ns.length := by
    rw [k4]; exact (List.getElem?_eq_some_iff.1 hi).1
  have hst : ns[i]? = some ns[i] := List.getElem?_eq_getElem hlt
  refine ⟨s', ns[i], k1, (k13 i _ w hst hi).1, ?_⟩
  have hlow : w.bounds.lower = w.bounds.left := by simp only [BitRange.lower]; omega
  have hupp : w.bounds.upper = w.bounds.right := by simp only [BitRange.upper]; omega
  have hlk : s'.vars.lookup w.sym w.bounds = some ns[i] := by
    refine varLookup_unique hasc ?_ ?_
    · refine (k12 _ _).2 (.inr ⟨i, _, w, hst, hi, rfl, ?_⟩)
      rw [hlow, hupp]
    · intro e he h1 h2
      rcases (k12 _ _).1 he with he | ⟨j, m, v, j1, j2, j3, rfl⟩
      · exact absurd ⟨h1, h2⟩ (hold e he)
      · have := hnew j v j2 j3 h1 h2
        subst this
        rw [hst] at j1; cases j1; rfl
  simp [emitDeps, hlk]

/-- C56 fails for every other range: a signal written by sequential blocks only has no entry in the
driver maps, so a read of a range that is not exactly a registered one gets no dependency, although
it may overlap a register. -/
theorem partial_register_read_lost {D : Design} {sens : List SensEntry} (hse : sens ≠ [])
    {ws : List Driven} {s : Bld} (hs : BldOk s) (hw : ∀ w ∈ ws, DriversIn s.net w) {sym : Nat}
    (hslot : s.trk.getSlot sym = none) {b : BitRange}
    (hold : ∀ e ∈ s.vars sym, ¬ (e.lo = b.left ∧ e.hi = b.right))
    (hws : ∀ w ∈ ws, w.sym = sym → ¬ (w.bounds.lower = b.left ∧ w.bounds.upper = b.right))
    (n : Nat) (k : EdgeKind) :
    ∃ s', s.mergeDrivers D sens ws = .ok s' ∧
      emitDeps ⟨s'.vars, s'.trk, s'.drv, D.ref⟩ ⟨sym, b, some n, k⟩ = .ok [] := by
  obtain ⟨s', ns, k1, k2, k3, k4, k5, k6, _, k8, k9, k10, _, k12, k13⟩ :=
    sequential_block (D := D) hse ws hs hw
  refine ⟨s', k1, ?_⟩
  have hlk : s'.vars.lookup sym b = none := by
    cases hc : s'.vars.lookup sym b with
    | none => rfl
    | some m =>
      obtain ⟨e, he, _, h2⟩ := varLookup_mem hc
      have h2' : e.lo = b.left ∧ e.hi = b.right := by cases b; simpa using h2
      rcases (k12 _ _).1 he with he | ⟨j, m, v, j1, j2, j3, rfl⟩
      · exact absurd h2' (hold e he)
      · exact absurd h2' (hws v (List.mem_of_getElem? j2) j3)
  simp [emitDeps, hlk, Tracker.intervals, k9, hslot]

/-! ### C57: values written by an edge-triggered block -/

/-- C57: if no driven signal is a modport port and none has a variable node for a driven range, the
edges a sequential block adds all enter or leave its registers, so no value bypasses them. The full
claim drops the conditions; it is false (`modport_register_bypassed`,
`interface_register_bypassed`). -/
theorem no_bypass_partial {D : Design} {sens : List SensEntry} (hse : sens ≠ [])
    (ws : List Driven) : ∀ {s : Bld}, BldOk s → (∀ w ∈ ws, DriversIn s.net w) →
    (∀ w ∈ ws, D.kind w.sym ≠ .modportPort) →
    (∀ w ∈ ws, D.kind w.sym = .variable → ∀ e ∈ s.vars w.sym, e.val ∈ s.net.g.nodes →
      (⟨e.lo, e.hi⟩ : BitRange) ≠ w.bounds) →
    ∃ s' ns, s.mergeDrivers D sens ws = .ok s' ∧ s'.net.g.nodes = s.net.g.nodes ++ ns ∧
      (∀ n ∈ ns, n ∉ s.net.g.nodes ∧ s'.net.kind n = .state) ∧
      ∀ a t, Joined s'.net a t → Joined s.net a t ∨ a ∈ ns ∨ t ∈ ns := by
  have key : ∀ (ws : List Driven) (old : List Nat) {s : Bld}, BldOk s →
      (∀ w ∈ ws, DriversIn s.net w) → (∀ w ∈ ws, D.kind w.sym ≠ .modportPort) →
      (∀ n ∈ old, n ∈ s.net.g.nodes) →
      (∀ w ∈ ws, D.kind w.sym = .variable → ∀ e ∈ s.vars w.sym, e.val ∈ old →
        (⟨e.lo, e.hi⟩ : BitRange) ≠ w.bounds) → ∀ s', s.mergeDrivers D sens ws = .ok s' →
      ∀ a t, Joined s'.net a t → Joined s.net a t ∨ a ∉ old ∨ t ∉ old := by
    intro ws old
    induction ws with
    | nil =>
      intro s _ _ _ _ _ s' h a t hj
      simp only [Bld.mergeDrivers, Except.ok.injEq] at h
      subst h; exact .inl hj
    | cons w ws ih =>
      intro s hs hw hm hin hold s' h a t hj
      have hemp : sens.isEmpty = false := by cases sens with
        | nil => exact absurd rfl hse
        | cons _ _ => rfl
      obtain ⟨s1, st, net1, h1, h2, h3, h4, h5, h6, h7, h8, h9, h10, h11, h12, h13, h14, h15⟩ :=
        mergeSeq_spec (D := D) (sens := sens) hs (hw w List.mem_cons_self)
      simp only [Bld.mergeDrivers, hemp, Bool.false_eq_true, if_false, h1] at h
      have hst : st ∉ old := fun hc => h3 (hin st hc)
      have h16 := ih h2 (fun v hv d hd n hn => by
          rw [h4]; exact List.mem_append_left _ (hw v (List.mem_cons_of_mem _ hv) d hd n hn))
        (fun v hv => hm v (List.mem_cons_of_mem _ hv))
        (fun n hn => by rw [h4]; exact List.mem_append_left _ (hin n hn)) (fun v hv hk e he ho => by
          rw [h6] at he
          rcases varInsert_mem.1 he with he | ⟨_, rfl⟩
          · exact hold v (List.mem_cons_of_mem _ hv) hk e he ho
          · exact absurd ho hst) s' h a t hj
      rcases h16 with hj1 | hr
      · rcases (dependencies_join h11 h14 h15 a t).1 hj1 with hj2 | ⟨d, hd, rfl, rfl⟩
        · exact .inl ((joined_congr h12 a t).1 hj2)
        · refine .inr ?_
          unfold seqDeps at hd
          simp only [List.mem_append] at hd
          rcases hd with (hd | hd) | hd
          · obtain ⟨_, _, _, ht, _⟩ := mem_driverDeps.1 hd
            rw [ht]; exact .inr hst
          · obtain ⟨⟨x, hx, hn⟩, _⟩ := mem_hookupDeps hd
            simp only [List.mem_singleton] at hx
            subst hx
            simp only [Option.some.injEq] at hn
            rw [← hn]; exact .inl hst
          · obtain ⟨_, _, _, hh⟩ := mem_extraDeps hd
            rcases hh with ⟨hk, _⟩ | ⟨hk, hv, _⟩
            · exact absurd hk (hm w List.mem_cons_self)
            · obtain ⟨e, he, e1, e2⟩ := varLookup_mem hv
              simp only [h6] at he
              rcases varInsert_mem.1 he with he | ⟨_, rfl⟩
              · refine .inr fun ho => ?_
                rw [← e1] at ho
                exact hold w List.mem_cons_self hk e he ho e2
              · rw [← e1]; exact .inr hst
      · exact .inr hr
  intro s hs hw hm hold
  obtain ⟨s', ns, k1, k2, k3, k4, k5, k6, k7, k8, k9, k10, _, k12, k13⟩ :=
    sequential_block (D := D) hse ws hs hw
  refine ⟨s', ns, k1, k3, ?_, ?_⟩
  · intro n hn
    refine ⟨k6 n hn, ?_⟩
    obtain ⟨i, hi⟩ := List.getElem?_of_mem hn
    have hlt : i < ws.length := by rw [← k4]; exact (List.getElem?_eq_some_iff.1 hi).1
    have := (k13 i n ws[i] hi (List.getElem?_eq_getElem hlt)).1
    simp [NetGraph.kind, this, NodeData.kind]
  · intro a t hj
    have hends : a ∈ s'.net.g.nodes ∧ t ∈ s'.net.g.nodes := by
      obtain ⟨A, hrel, hinv⟩ := reachable_rel k2.reach
      obtain ⟨e, he, ht⟩ := hj
      rw [hrel.out] at he
      obtain ⟨he1, he2⟩ := List.mem_filter.1 he
      obtain ⟨q1, q2, _⟩ := hinv.ends e he1
      rw [hrel.nodes, ← ht, ← (by simpa using he2 : e.src = a)]
      exact ⟨q1, q2⟩
    rw [k3] at hends
    rcases key ws s.net.g.nodes hs hw hm (fun _ h => h) hold s' k1 a t hj with h | h | h
    · exact .inl h
    · exact .inr (.inl ((List.mem_append.1 hends.1).resolve_left h))
    · exact .inr (.inr ((List.mem_append.1 hends.2).resolve_left h))

/-! ### C58: output ports -/

/-- The port node of a driven range is a node of the port that holds the whole range; there is one
whenever some node of the port does. -/
theorem port_node_exact {s : Bld} (hs : BldOk s) (port : Nat) (b : BitRange) :
    match portNodeFor s port b with
    | some n => ∃ e ∈ s.vars port, e.val = n ∧ ∀ i, InRng b i → e.lo ≤ i ∧ i ≤ e.hi
    | none => ∀ e ∈ s.vars port, ¬ ∀ i, InRng b i → e.lo ≤ i ∧ i ≤ e.hi := by
  have hcont : ∀ e ∈ s.vars port, ((match (s.net.data e.val).bounds with
      | some nb => nb.containsRange b
      | none => false) = true ↔ ∀ i, InRng b i → e.lo ≤ i ∧ i ≤ e.hi) := by
    intro e he
    obtain ⟨_, nb, h1, h2, h3⟩ := hs.vars port e he
    have hb : b.lower ≤ b.upper := by simp only [BitRange.lower, BitRange.upper]; omega
    simp only [h1, BitRange.containsRange, Bool.and_eq_true, decide_eq_true_eq, inRng_iff]
    constructor
    · intro h i hi; omega
    · intro h
      have := h b.lower (by omega)
      have := h b.upper (by omega)
      omega
  unfold portNodeFor
  cases hl : s.vars.lookup port b with
  | some n =>
    obtain ⟨e, he, h1, h2⟩ := varLookup_mem hl
    refine ⟨e, he, h1, ?_⟩
    obtain ⟨_, nb, _, h3, h4⟩ := hs.vars port e he
    have h5 : nb.lower ≤ nb.upper := by simp only [BitRange.lower, BitRange.upper]; omega
    intro i hi
    rw [inRng_iff] at hi
    have h6 : e.lo = b.left ∧ e.hi = b.right := by cases b; simpa using h2
    simp only [BitRange.lower, BitRange.upper] at hi
    omega
  | none =>
    dsimp only
    cases hf : (s.vars.lookupAll port).find? _ with
    | some n =>
      obtain ⟨e, he, h1⟩ := List.mem_map.1 (List.mem_of_find?_eq_some hf)
      subst h1
      exact ⟨e, he, rfl, (hcont e he).1 (by have := List.find?_some hf; exact this)⟩
    | none =>
      intro e he h
      exact List.find?_eq_none.1 hf _ (List.mem_map.2 ⟨e, he, rfl⟩) ((hcont e he).2 h)

/-- The dependencies of an output port, exactly: each driver to one node of the port that holds the
whole range, if there is one. -/
theorem hookup_exact {D : Design} {s : Bld} (hs : BldOk s) {sym port : Nat} {b : BitRange}
    {l : List DriverInfo} (hp : D.port sym = some port) :
    (∃ e ∈ s.vars port, (∀ i, InRng b i → e.lo ≤ i ∧ i ≤ e.hi) ∧
      ∀ d, d ∈ hookupDeps D s sym b l ↔ ∃ x ∈ l, x.node = some d.src ∧
        d = ⟨d.src, e.val, some (D.ref sym), b, .none⟩) ∨
    ((∀ e ∈ s.vars port, ¬ ∀ i, InRng b i → e.lo ≤ i ∧ i ≤ e.hi) ∧
      hookupDeps D s sym b l = []) := by
  have h := port_node_exact hs port b
  unfold hookupDeps
  simp only [hp]
  cases hn : portNodeFor s port b with
  | none => rw [hn] at h; exact .inr ⟨h, rfl⟩
  | some pn =>
    rw [hn] at h
    obtain ⟨e, he, h1, h2⟩ := h
    refine .inl ⟨e, he, h2, ?_⟩
    intro d
    dsimp only
    rw [mem_driverDeps, h1]
    constructor
    · rintro ⟨x, hx, q1, q2, q3, q4, q5⟩
      exact ⟨x, hx, q1, by cases d; simp_all⟩
    · rintro ⟨x, hx, q1, q2⟩
      exact ⟨x, hx, q1, by rw [q2], by rw [q2], by rw [q2], by rw [q2]⟩

/-- C58 for a register: if a node of the output port holds the driven range, the register is entered
from every driver of the range and is connected to such a node. The full claim is that every bit of the port is connected to its register
whatever the port's nodes are; it is false (`straddling_port_unconnected`). -/
theorem register_to_port_partial {D : Design} {sens : List SensEntry} (hse : sens ≠ [])
    {port : Nat} (ws : List Driven) : ∀ {s s' : Bld}, BldOk s → (∀ w ∈ ws, DriversIn s.net w) →
    s.mergeDrivers D sens ws = .ok s' → ∀ w ∈ ws, D.port w.sym = some port →
    (∃ e ∈ s.vars port, ∀ i, InRng w.bounds i → e.lo ≤ i ∧ i ≤ e.hi) →
    ∃ st e, s'.net.data st = .state (D.ref w.sym).name (D.ref w.sym).path (D.ref w.sym).loc
        w.bounds ∧ st ∉ s.net.g.nodes ∧ st ∈ s'.net.g.nodes ∧
      (∀ x ∈ w.drivers, ∀ n, x.node = some n → Joined s'.net n st) ∧ e ∈ s'.vars port ∧
      (∀ i, InRng w.bounds i → e.lo ≤ i ∧ i ≤ e.hi) ∧ Joined s'.net st e.val ∧
      ⟨w.bounds.lower, w.bounds.upper, st⟩ ∈ s'.vars w.sym := by
  induction ws with
  | nil => intro s s' _ _ _ w hw; cases hw
  | cons v ws ih =>
    intro s s' hs hw h w hmem hp hcov
    have hemp : sens.isEmpty = false := by cases sens with
      | nil => exact absurd rfl hse
      | cons _ _ => rfl
    obtain ⟨s1, st, net1, h1, h2, h3, h4, h5, h6, h7, h8, h9, h10, h11, h12, h13, h14, h15⟩ :=
      mergeSeq_spec (D := D) (sens := sens) hs (hw v List.mem_cons_self)
    simp only [Bld.mergeDrivers, hemp, Bool.false_eq_true, if_false, h1] at h
    have hw1 : ∀ u ∈ ws, DriversIn s1.net u := fun u hu d hd n hn => by
      rw [h4]; exact List.mem_append_left _ (hw u (List.mem_cons_of_mem _ hu) d hd n hn)
    have hcov1 : ∃ e ∈ s1.vars port, ∀ i, InRng w.bounds i → e.lo ≤ i ∧ i ≤ e.hi := by
      obtain ⟨e, he, hc⟩ := hcov
      exact ⟨e, by rw [h6]; exact varInsert_mem.2 (.inl he), hc⟩
    rcases List.mem_cons.1 hmem with rfl | hmem
    · obtain ⟨s2, ns, k1, k2, k3, k4, k5, k6, k7, k8, k9, k10, k11, k12, k13⟩ :=
        sequential_block (D := D) hse ws h2 hw1
      rw [k1] at h; cases h
      have hs2 : BldOk ⟨net1, s1.vars, s.trk, s.drv, s1.queue⟩ := by
        have hn : net1.g.nodes = s1.net.g.nodes := by
          obtain ⟨net2, q1, _, _, q2, _⟩ := addDependencies_spec h11 h14
          rw [h15] at q1; cases q1; exact q2.symm
        refine ⟨h11, ?_, ?_⟩
        · intro sym e he; simp only [h10, hn]; exact h2.vars sym e he
        · intro p hp n hn'; simp only [hn]; exact h2.pend p hp n hn'
      rcases hookup_exact hs2 (b := w.bounds) (l := [⟨some st, 0⟩]) hp with
        ⟨e, he, q1, q2⟩ | ⟨q1, _⟩
      · refine ⟨st, e, ?_, h3, by rw [k3, h4]; simp, ?_, (k12 _ _).2 (.inl he), q1, ?_,
          (k12 _ _).2 (.inl (by rw [h6]; exact varInsert_mem.2 (.inr ⟨rfl, rfl⟩)))⟩
        · rw [k7 st (by rw [h4]; simp), h5]; simp
        · intro d hd m hm
          refine k11 m st ((dependencies_join h11 h14 h15 m st).2 (.inr ?_))
          refine ⟨⟨m, st, some (D.ref w.sym), w.bounds, .none⟩, ?_, rfl, rfl⟩
          unfold seqDeps
          refine List.mem_append_left _ (List.mem_append_left _ (mem_driverDeps.2 ?_))
          exact ⟨d, hd, hm, rfl, rfl, rfl, rfl⟩
        · refine k11 _ _ ((dependencies_join h11 h14 h15 _ _).2 (.inr ?_))
          refine ⟨⟨st, e.val, some (D.ref w.sym), w.bounds, .none⟩, ?_, rfl, rfl⟩
          unfold seqDeps
          exact List.mem_append_left _ (List.mem_append_right _
            ((q2 _).2 ⟨_, List.mem_singleton.2 rfl, rfl, rfl⟩))
      · obtain ⟨e, he, hc⟩ := hcov1
        exact absurd hc (q1 e he)
    · obtain ⟨st', e, g1, g2, g3⟩ := ih h2 hw1 h w hmem hp hcov1
      exact ⟨st', e, g1, fun hc => g2 (by rw [h4]; exact List.mem_append_left _ hc), g3⟩

/-- C58 for a combinational block: if a node of the output port holds the driven range, every driver
of the range is connected to such a node. -/
theorem driver_to_port_partial {D : Design} {port : Nat} (ws : List Driven) : ∀ {s s' : Bld},
    BldOk s → (∀ w ∈ ws, DriversIn s.net w) → s.mergeDrivers D [] ws = .ok s' →
    (∀ a t, Joined s.net a t → Joined s'.net a t) ∧
    ∀ w ∈ ws, D.port w.sym = some port →
    (∃ e ∈ s.vars port, ∀ i, InRng w.bounds i → e.lo ≤ i ∧ i ≤ e.hi) →
    ∃ e ∈ s.vars port, (∀ i, InRng w.bounds i → e.lo ≤ i ∧ i ≤ e.hi) ∧
      ∀ x ∈ w.drivers, ∀ n, x.node = some n → Joined s'.net n e.val := by
  induction ws with
  | nil =>
    intro s s' _ _ h
    simp only [Bld.mergeDrivers, Except.ok.injEq] at h
    subst h
    exact ⟨fun _ _ h => h, fun w hw => by cases hw⟩
  | cons v ws ih =>
    intro s s' hs hw h
    have h' := h
    simp only [Bld.mergeDrivers, List.isEmpty_nil, if_true] at h
    split at h
    · cases h
    rename_i s1 hs1
    have hone : s.mergeDrivers D [] [v] = .ok s1 := by
      simp only [Bld.mergeDrivers, List.isEmpty_nil, if_true, hs1]
    obtain ⟨g1, g2, g3, g4, g5, _⟩ := combinational_block (D := D) [v] hs
      (fun u hu => hw u (by rw [List.mem_singleton.1 hu]; exact List.mem_cons_self)) hone
    have hw1 : ∀ u ∈ ws, DriversIn s1.net u := fun u hu d hd n hn => by
      rw [g2]; exact hw u (List.mem_cons_of_mem _ hu) d hd n hn
    obtain ⟨i1, i2⟩ := ih g1 hw1 h
    simp only [Bld.mergeComb] at hs1
    split at hs1
    · cases hs1
    rename_i t1 d1 ht1
    have hs0 : BldOk ⟨s.net, s.vars, t1, d1, s.queue⟩ := ⟨hs.reach, hs.vars, hs.pend⟩
    have hnodes : ∀ d ∈ hookupDeps D ⟨s.net, s.vars, t1, d1, s.queue⟩ v.sym v.bounds v.drivers ++
        extraDeps D ⟨s.net, s.vars, t1, d1, s.queue⟩ v.sym v.bounds v.drivers,
        d.src ∈ s.net.g.nodes ∧ d.tgt ∈ s.net.g.nodes := by
      intro d hd
      rcases List.mem_append.1 hd with hd | hd
      · obtain ⟨⟨x, hx, hn⟩, _, _, _, port, _, e, he, ht⟩ := mem_hookupDeps hd
        refine ⟨hw v List.mem_cons_self x hx _ hn, ?_⟩
        rw [← ht]; exact (hs.vars _ _ he).1
      · obtain ⟨⟨x, hx, hn⟩, _, _, hh⟩ := mem_extraDeps hd
        refine ⟨hw v List.mem_cons_self x hx _ hn, ?_⟩
        rcases hh with ⟨_, _, _, _, u, _, hv, _⟩ | ⟨_, hv, _⟩
        · obtain ⟨e, he, h8, _⟩ := varLookup_mem hv
          rw [← h8]; exact (hs.vars _ _ he).1
        · obtain ⟨e, he, h8, _⟩ := varLookup_mem hv
          rw [← h8]; exact (hs.vars _ _ he).1
    have hadd : ∃ net2, s.net.addDependencies
        (hookupDeps D ⟨s.net, s.vars, t1, d1, s.queue⟩ v.sym v.bounds v.drivers ++
        extraDeps D ⟨s.net, s.vars, t1, d1, s.queue⟩ v.sym v.bounds v.drivers) = some net2 ∧
        s1.net = net2 := by
      unfold Bld.addDeps at hs1
      split at hs1
      · cases hs1
      · rename_i net2 hn2; cases hs1; exact ⟨net2, hn2, rfl⟩
    obtain ⟨net2, hn2, rfl⟩ := hadd
    refine ⟨fun a t hj => i1 a t (joined_mono hs.reach hnodes hn2 hj), ?_⟩
    intro w hmem hp hcov
    rcases List.mem_cons.1 hmem with rfl | hmem
    · rcases hookup_exact hs0 (b := w.bounds) (l := w.drivers) hp with ⟨e, he, q1, q2⟩ | ⟨q1, _⟩
      · refine ⟨e, he, q1, ?_⟩
        intro x hx n hn
        refine i1 _ _ ((dependencies_join hs.reach hnodes hn2 _ _).2 (.inr ?_))
        exact ⟨⟨n, e.val, some (D.ref w.sym), w.bounds, .none⟩,
          List.mem_append_left _ ((q2 _).2 ⟨x, hx, hn, rfl⟩), rfl, rfl⟩
      · obtain ⟨e, he, hc⟩ := hcov
        exact absurd hc (q1 e he)
    · rw [g4] at i2
      exact i2 w hmem hp hcov

/-! ### C59: writes to interface signals -/

/-- A node is registered for exactly the range `b` of `sym`. -/
def HasNode (s : Bld) (sym : Nat) (b : BitRange) : Prop :=
  b.left ≤ b.right ∧ ∃ e ∈ s.vars sym, e.lo = b.left ∧ e.hi = b.right

/-- `n` is connected to a node registered for exactly the range `b` of `sym`. -/
def Reaches (s : Bld) (n sym : Nat) (b : BitRange) : Prop :=
  ∃ e ∈ s.vars sym, e.lo = b.left ∧ e.hi = b.right ∧ Joined s.net n e.val

/-- The variable ranges a driver of `w` writes: those the modport port refers to, or the driven
range of the variable itself. -/
def Writes (D : Design) (w : Driven) (d : DriverInfo) (v : Nat × BitRange) : Prop :=
  (D.kind w.sym = .modportPort ∧ v ∈ D.iface w.sym d.lsp) ∨
    (D.kind w.sym = .variable ∧ v = (w.sym, w.bounds))

theorem lookup_of_hasNode {s : Bld} {sym : Nat} {b : BitRange} (h : HasNode s sym b) :
    ∃ n, s.vars.lookup sym b = some n := by
  obtain ⟨hasc, e, he, h1, h2⟩ := h
  cases hc : s.vars.lookup sym b with
  | some m => exact ⟨m, rfl⟩
  | none =>
    unfold VarTab.lookup at hc
    rw [Option.map_eq_none_iff, List.find?_eq_none] at hc
    refine absurd ?_ (hc e (List.mem_filter.2 ⟨he, ?_⟩))
    · cases b; simp_all
    · simp only [Ivl.hits, BitRange.lower, BitRange.upper, Bool.and_eq_true]
      refine ⟨decide_eq_true ?_, decide_eq_true ?_⟩ <;> omega

/-- The dependencies on variable nodes, from the other side. -/
theorem extra_has {D : Design} {s : Bld} {w : Driven} {d : DriverInfo} (hd : d ∈ w.drivers)
    {n : Nat} (hn : d.node = some n) {v : Nat × BitRange} (hv : Writes D w d v)
    (h : HasNode s v.1 v.2) :
    ∃ x ∈ extraDeps D s w.sym w.bounds w.drivers, x.src = n ∧
      ∃ e ∈ s.vars v.1, e.lo = v.2.left ∧ e.hi = v.2.right ∧ x.tgt = e.val := by
  obtain ⟨m, hm⟩ := lookup_of_hasNode h
  obtain ⟨e, he, h1, h2⟩ := varLookup_mem hm
  have h3 : e.lo = v.2.left ∧ e.hi = v.2.right := by
    rw [← h2]; exact ⟨rfl, rfl⟩
  unfold extraDeps
  rcases hv with ⟨hk, hv⟩ | ⟨hk, rfl⟩
  · refine ⟨⟨n, m, some (D.ref w.sym), v.2, .none⟩, List.mem_flatMap.2 ⟨d, hd, ?_⟩, rfl, e, he,
      h3.1, h3.2, h1.symm⟩
    simp only [hn, hk]
    exact List.mem_filterMap.2 ⟨v, hv, by simp [hm]⟩
  · refine ⟨⟨n, m, some (D.ref w.sym), ((s.net.data m).bounds).getD w.bounds, .none⟩,
      List.mem_flatMap.2 ⟨d, hd, ?_⟩, rfl, e, he, h3.1, h3.2, h1.symm⟩
    simp only [hn, hk]
    simp [hm]

/-- C59: each driver of a merged range gets an edge to a node of every interface variable range it
writes, if the range has a node. -/
theorem interface_write_connected {D : Design} {sens : List SensEntry} (ws : List Driven) :
    ∀ {s s' : Bld}, BldOk s → (∀ w ∈ ws, DriversIn s.net w) →
    s.mergeDrivers D sens ws = .ok s' →
    ∀ w ∈ ws, ∀ d ∈ w.drivers, ∀ n, d.node = some n → ∀ v, Writes D w d v →
    HasNode s v.1 v.2 → Reaches s' n v.1 v.2 := by
  induction ws with
  | nil => intro s s' _ _ _ w hw; cases hw
  | cons u ws ih =>
    intro s s' hs hw h w hmem d hd n hn v hv hnode
    by_cases hse : sens = []
    · subst hse
      obtain ⟨_, _, _, hvars, _⟩ := combinational_block (D := D) _ hs hw h
      simp only [Bld.mergeDrivers, List.isEmpty_nil, if_true] at h
      split at h
      · cases h
      rename_i s1 hs1
      have hone : s.mergeDrivers D [] [u] = .ok s1 := by
        simp only [Bld.mergeDrivers, List.isEmpty_nil, if_true, hs1]
      obtain ⟨g1, g2, g3, g4, g5, _⟩ := combinational_block (D := D) [u] hs
        (fun x hx => hw x (by rw [List.mem_singleton.1 hx]; exact List.mem_cons_self)) hone
      have hw1 : ∀ x ∈ ws, DriversIn s1.net x := fun x hx d hd n hn => by
        rw [g2]; exact hw x (List.mem_cons_of_mem _ hx) d hd n hn
      rcases List.mem_cons.1 hmem with rfl | hmem
      · obtain ⟨i1, _⟩ := driver_to_port_partial (D := D) (port := 0) ws g1 hw1 h
        simp only [Bld.mergeComb] at hs1
        split at hs1
        · cases hs1
        rename_i t1 d1 ht1
        unfold Bld.addDeps at hs1
        split at hs1
        · cases hs1
        rename_i net2 hn2
        cases hs1
        obtain ⟨x, hx, hsrc, e, he, e1, e2, htgt⟩ := extra_has
          (s := ⟨s.net, s.vars, t1, d1, s.queue⟩) hd hn hv hnode
        refine ⟨e, by rw [hvars]; exact he, e1, e2, i1 _ _ ?_⟩
        refine (dependencies_join hs.reach ?_ hn2 _ _).2 (.inr ⟨x, List.mem_append_right _ hx, hsrc,
          htgt⟩)
        intro y hy
        rcases List.mem_append.1 hy with hy | hy
        · obtain ⟨⟨x, hx, hn⟩, _, _, _, port, _, e, he, ht⟩ := mem_hookupDeps hy
          refine ⟨hw w List.mem_cons_self x hx _ hn, ?_⟩
          rw [← ht]; exact (hs.vars _ _ he).1
        · obtain ⟨⟨x, hx, hn⟩, _, _, hh⟩ := mem_extraDeps hy
          refine ⟨hw w List.mem_cons_self x hx _ hn, ?_⟩
          rcases hh with ⟨_, _, _, _, z, _, hv, _⟩ | ⟨_, hv, _⟩
          · obtain ⟨e, he, h8, _⟩ := varLookup_mem hv
            rw [← h8]; exact (hs.vars _ _ he).1
          · obtain ⟨e, he, h8, _⟩ := varLookup_mem hv
            rw [← h8]; exact (hs.vars _ _ he).1
      · exact ih g1 hw1 h w hmem d hd n hn v hv (by unfold HasNode; rw [g4]; exact hnode)
    · have hemp : sens.isEmpty = false := by cases sens with
        | nil => exact absurd rfl hse
        | cons _ _ => rfl
      obtain ⟨s1, st, net1, h1, h2, h3, h4, h5, h6, h7, h8, h9, h10, h11, h12, h13, h14, h15⟩ :=
        mergeSeq_spec (D := D) (sens := sens) hs (hw u List.mem_cons_self)
      simp only [Bld.mergeDrivers, hemp, Bool.false_eq_true, if_false, h1] at h
      have hw1 : ∀ x ∈ ws, DriversIn s1.net x := fun x hx d hd n hn => by
        rw [h4]; exact List.mem_append_left _ (hw x (List.mem_cons_of_mem _ hx) d hd n hn)
      have hnode1 : HasNode s1 v.1 v.2 := by
        obtain ⟨q1, e, he, q2⟩ := hnode
        exact ⟨q1, e, by rw [h6]; exact varInsert_mem.2 (.inl he), q2⟩
      rcases List.mem_cons.1 hmem with rfl | hmem
      · obtain ⟨s2, ns, k1, k2, k3, k4, k5, k6, k7, k8, k9, k10, k11, k12, k13⟩ :=
          sequential_block (D := D) hse ws h2 hw1
        rw [k1] at h; cases h
        obtain ⟨x, hx, hsrc, e, he, e1, e2, htgt⟩ := extra_has
          (s := ⟨net1, s1.vars, s.trk, s.drv, s1.queue⟩) hd hn hv hnode1
        refine ⟨e, (k12 _ _).2 (.inl he), e1, e2, k11 _ _ ?_⟩
        exact (dependencies_join h11 h14 h15 _ _).2
          (.inr ⟨x, List.mem_append_right _ hx, hsrc, htgt⟩)
      · exact ih h2 hw1 h w hmem d hd n hn v hv hnode1

/-! ### A concrete design

Signals: 0 = `clk`, 1 = `r` (8 bits, an output whose port is 2), 2 = the port, 3 = a modport port of
interface variable 4, 4 = that variable. Nodes: 0 = the port node of `clk`, 1 = an assignment, 2 and
3 = the port nodes of the output (bits 0-3 and 4-7), 4 = the node of the interface variable. -/

def regDesign : Design where
  ref n := oneSym (Char.ofNat (97 + n))
  kind n := if n = 3 then .modportPort else if n = 4 then .variable else .other
  width n := if n = 0 then 1 else 8
  port n := if n = 1 then some 2 else none
  iface n _ := if n = 3 then [(4, ⟨0, 7⟩)] else []

def regCalls : List NetOp :=
  [.addNode (.port ['a'] ['a'] {} .input ⟨0, 0⟩), .addNode (.assignment {}),
    .addNode (.port ['c'] ['c'] {} .output ⟨0, 3⟩), .addNode (.port ['c'] ['c'] {} .output ⟨4, 7⟩),
    .addNode (.variable ['e'] ['e'] {} ⟨0, 7⟩)]

def regNet : NetGraph := (NetGraph.calls {} regCalls).getD {}

def regBld : Bld :=
  { net := regNet
    vars := VarTab.run (fun _ => []) [(0, ⟨0, 0⟩, 0), (2, ⟨0, 3⟩, 2), (2, ⟨4, 7⟩, 3), (4, ⟨0, 7⟩, 4)] }

theorem regBld_ok : BldOk regBld := by
  refine ⟨⟨regCalls, rfl⟩, ?_, ?_⟩
  · intro sym e he
    have h : regBld.vars sym = (if sym = 4 then [⟨0, 7, 4⟩] else if sym = 2 then
        [⟨0, 3, 2⟩, ⟨4, 7, 3⟩] else if sym = 0 then [⟨0, 0, 0⟩] else []) := by
      simp only [regBld, VarTab.run, VarTab.insert]
      repeat' split
      all_goals first | rfl | simp_all
    rw [h] at he
    repeat' split at he
    · cases List.mem_singleton.1 he
      exact ⟨by decide, ⟨0, 7⟩, rfl, rfl, rfl⟩
    · rcases List.mem_cons.1 he with rfl | he
      · exact ⟨by decide, ⟨0, 3⟩, rfl, rfl, rfl⟩
      · cases List.mem_singleton.1 he
        exact ⟨by decide, ⟨4, 7⟩, rfl, rfl, rfl⟩
    · cases List.mem_singleton.1 he
      exact ⟨by decide, ⟨0, 0⟩, rfl, rfl, rfl⟩
    · cases he
  · intro p hp; cases hp

/-- `r[hi:lo] <= …` in a block triggered by the rising edge of `clk`, driven by node 1. -/
def regWrite (sym : Nat) (b : BitRange) : Driven := ⟨sym, b, [⟨some 1, 0⟩]⟩

theorem regWrite_in (sym : Nat) (b : BitRange) : DriversIn regBld.net (regWrite sym b) := by
  intro d hd n hn
  cases List.mem_singleton.1 hd
  cases hn
  decide

/-- The state after the block. -/
def regAfter (ws : List Driven) : Bld :=
  ((regBld.mergeDrivers regDesign [⟨0, .posEdge⟩] ws).toOption).getD regBld

def targetsOf (s : Bld) (n : Nat) : List Nat := (s.net.g.obj n).outE.map Edge.tgt

/-- The hypotheses of the block theorems are met; the register is node 5, driven by node 1, driving
port node 2, and waiting for `clk`. -/
example : BldOk regBld ∧ DriversIn regBld.net (regWrite 1 ⟨0, 3⟩) ∧
    (regAfter [regWrite 1 ⟨0, 3⟩]).net.data 5 = .state ['b'] ['b'] {} ⟨0, 3⟩ ∧
    targetsOf (regAfter [regWrite 1 ⟨0, 3⟩]) 1 = [5] ∧
    targetsOf (regAfter [regWrite 1 ⟨0, 3⟩]) 5 = [2] ∧
    (regAfter [regWrite 1 ⟨0, 3⟩]).queue = [⟨0, ⟨0, 0⟩, some 5, .posEdge⟩] ∧
    (∃ e ∈ regBld.vars 2, ∀ i, InRng ⟨0, 3⟩ i → e.lo ≤ i ∧ i ≤ e.hi) :=
  ⟨regBld_ok, regWrite_in _ _, by rfl, by decide, by decide, by decide, ⟨0, 3, 2⟩, by decide,
    fun i hi => by simp only [inRng_iff, BitRange.lower, BitRange.upper] at hi; dsimp only; omega⟩

/-- The hypotheses of `interface_write_connected` are met. -/
example : Writes regDesign (regWrite 3 ⟨0, 7⟩) ⟨some 1, 0⟩ (4, ⟨0, 7⟩) ∧ HasNode regBld 4 ⟨0, 7⟩ :=
  ⟨.inl ⟨by decide, by decide⟩, by decide, ⟨0, 7, 4⟩, by decide, by decide, by decide⟩

/-- The hypotheses of the end-to-end theorem are met by a block that assigns two halves of `r`. -/
example : let hist : List (Nat × Rec) :=
      [(1, ⟨⟨0, 3⟩, [⟨some 1, 0⟩], false⟩), (1, ⟨⟨4, 7⟩, [⟨some 1, 0⟩], false⟩)]
    EdgeTriggered (eventsOf .alwaysFF (.timed (.signalEvent ⟨.posEdge, some 0⟩))) ∧
    (∀ s, InRange (histOf hist s)) ∧ (∀ s, NeverSplits (histOf hist s)) ∧
    ∀ x ∈ hist, ∀ d ∈ x.2.drivers, ∀ n, d.node = some n → n ∈ regBld.net.g.nodes := by
  refine ⟨⟨⟨_, List.mem_singleton.2 rfl, by decide⟩, by simp [eventsOf]⟩, ?_, ?_, ?_⟩
  · intro s r hr
    unfold histOf at hr
    obtain ⟨x, hx, rfl⟩ := List.mem_map.1 hr
    have := (List.mem_filter.1 hx).1
    simp only [List.mem_cons, List.not_mem_nil, or_false] at this
    rcases this with rfl | rfl <;> decide
  · intro s
    unfold histOf
    by_cases h : s = 1
    · subst h; exact never_splits (by simp [NeverInside]; decide)
    · exact never_splits (by simp [NeverInside, Ne.symm h])
  · intro x hx d hd n hn
    simp only [List.mem_cons, List.not_mem_nil, or_false] at hx
    rcases hx with rfl | rfl <;> (cases List.mem_singleton.1 hd; cases hn; decide)

/-- C56 is false: `r[7:0]` is a register, the read of `r[7:0]` is connected to it, the read of
`r[3:0]` to nothing. -/
theorem half_register_read_lost :
    let s := regAfter [regWrite 1 ⟨0, 7⟩]
    s.net.data 5 = .state ['b'] ['b'] {} ⟨0, 7⟩ ∧
    emitDeps ⟨s.vars, s.trk, s.drv, regDesign.ref⟩ ⟨1, ⟨0, 7⟩, some 1, .none⟩ =
      .ok [⟨5, 1, some (oneSym 'b'), ⟨0, 7⟩, .none⟩] ∧
    emitDeps ⟨s.vars, s.trk, s.drv, regDesign.ref⟩ ⟨1, ⟨0, 3⟩, some 1, .none⟩ = .ok [] :=
  ⟨by rfl, by rfl, by rfl⟩

/-- C57 is false: a register written through a modport port has no outgoing edge, and its driver is
connected to the interface variable directly. -/
theorem modport_register_bypassed :
    let s := regAfter [regWrite 3 ⟨0, 7⟩]
    s.net.data 5 = .state ['d'] ['d'] {} ⟨0, 7⟩ ∧ s.net.data 4 = .variable ['e'] ['e'] {} ⟨0, 7⟩ ∧
    targetsOf s 1 = [5, 4] ∧ targetsOf s 5 = [] :=
  ⟨by rfl, by rfl, by decide, by decide⟩

/-- C57 is false for an interface variable written directly, too. -/
theorem interface_register_bypassed :
    let s := regAfter [regWrite 4 ⟨0, 7⟩]
    s.net.data 5 = .state ['e'] ['e'] {} ⟨0, 7⟩ ∧ s.net.data 4 = .variable ['e'] ['e'] {} ⟨0, 7⟩ ∧
    targetsOf s 1 = [5, 4] ∧ targetsOf s 5 = [] :=
  ⟨by rfl, by rfl, by decide, by decide⟩

/-- C58 is false: the port has nodes for bits 0-3 and bits 4-7; a register for bits 0-7 is connected
to neither. -/
theorem straddling_port_unconnected :
    let s := regAfter [regWrite 1 ⟨0, 7⟩]
    s.net.data 5 = .state ['b'] ['b'] {} ⟨0, 7⟩ ∧
    s.net.data 2 = .port ['c'] ['c'] {} .output ⟨0, 3⟩ ∧
    s.net.data 3 = .port ['c'] ['c'] {} .output ⟨4, 7⟩ ∧ targetsOf s 5 = [] :=
  ⟨by rfl, by rfl, by rfl, by decide⟩

end Verif.Props

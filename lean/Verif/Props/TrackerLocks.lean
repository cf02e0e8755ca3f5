import Verif.Proofs.TrackerRuns

/-!
C95: concurrent recording of drivers.

All statements are about any number of threads that record any drivers in a tracker, from a state in which no
thread uses it, under any schedule.
-/
namespace Verif.Props
open Verif.Model Verif.Spec Verif.Proofs

variable {t : Tracker} {names : List (Nat × Nat)} {drv : List DMap} {mem : Nat} {prog : List (List (Nat × Rec))}
  {sched : List Nat}

/-- Recordings made one at a time from the empty tracker leave a tracker as the theorems below assume. -/
theorem recorded_tracker_ok {hist : List (Nat × Rec)} (h : ({} : Tracker).run [] hist = .ok (t, drv)) :
    TrackerOk t (t.slots.map fun p => (p.2, p.1)) drv := by
  have h1 := seqOk_run hist (t := {}) (drv := []) ⟨by simp, by simp, by simp, by simp⟩ h
  refine ⟨h1.fresh, h1.inj, h1.keys, fun i sym => ?_, h1.blank⟩
  rw [List.mem_map]
  constructor
  · rintro ⟨⟨a, b⟩, h2, e⟩; cases e; exact h2
  · exact fun h => ⟨(sym, i), h, rfl⟩

/-- C95: the effect of concurrent recordings is that of the same recordings made one at a time in the order
`s.log`: for every symbol the tracker then has the same driver map. Each thread's recordings are in the order of its
program, and all are there once the threads are done. -/
theorem recordings_linearizable (h0 : TrackerOk t names drv) {s : VSt}
    (hs : (VSt.begin t names drv mem prog).run sched = some (.ok s)) :
    (∃ t' drv', t.run drv (s.log.map (·.2)) = .ok (t', drv') ∧
      (∀ sym, mapFor s.trk s.drv sym = mapFor t' drv' sym) ∧
      ∀ sym b, s.trk.intervals s.drv sym b = t'.intervals drv' sym b) ∧
    (∀ u, callsOf s.log u <+: (prog[u]?).getD []) ∧
    (VDone s → ∀ u, callsOf s.log u = (prog[u]?).getD []) := by
  rcases vinv_run sched (vinv_begin h0 mem) hs with ⟨s', e, h⟩ | ⟨_, _, _, _, e, _⟩
  · cases e
    refine ⟨?_, fun u => ?_, fun hd u => ?_⟩
    · obtain ⟨t', d', e1, -, e2⟩ := seq_run (s.log.map (·.2)) (seqOk_of h0) (fun x => ⟨_, h.maps.maps x⟩)
      have e3 : ∀ sym, mapFor s.trk s.drv sym = mapFor t' d' sym := by
        intro sym
        have := h.maps.maps sym
        rw [e2 sym] at this
        exact (Except.ok.inj this).symm
      exact ⟨t', d', e1, e3, fun sym b => by rw [intervals_mapFor, intervals_mapFor, e3]⟩
    · exact ⟨vCall (s.th u) ++ s.todo u, by rw [← h.prog u, List.append_assoc]⟩
    · have := h.prog u
      rw [(hd u).1, (hd u).2] at this
      simpa [vCall] using this
  · cases e

/-- C95: when the threads are done, no two symbols share a slot, every symbol has at most one, the reverse
mapping mirrors the slots, and driver maps at numbers given to no symbol are empty. -/
theorem recordings_tracker_ok (h0 : TrackerOk t names drv) {s : VSt}
    (hs : (VSt.begin t names drv mem prog).run sched = some (.ok s)) (hd : VDone s) :
    TrackerOk s.trk s.names s.drv := by
  rcases vinv_run sched (vinv_begin h0 mem) hs with ⟨s', e, h⟩ | ⟨_, _, _, _, e, _⟩
  · cases e
    refine ⟨h.slots.fresh, h.slots.inj, h.slots.keys, fun i sym => ?_, h.maps.blank⟩
    rw [h.slots.names i sym]
    constructor
    · exact .inl
    · rintro (h1 | ⟨u, h1⟩)
      · exact h1
      · rw [(hd u).1] at h1; cases h1
  · cases e

/-- C95: a run faults only where the same recordings made one at a time do: no access is beyond the end of
a vector or through a dangling reference because of other threads. -/
theorem recordings_fault_free (h0 : TrackerOk t names drv) {f : Fault}
    (hs : (VSt.begin t names drv mem prog).run sched = some (.error f)) :
    ∃ hist : List (Nat × Nat × Rec), (∀ u, callsOf hist u <+: (prog[u]?).getD []) ∧
      t.run drv (hist.map (·.2)) = .error f := by
  rcases vinv_run sched (vinv_begin h0 mem) hs with ⟨_, e, _⟩ | ⟨s, u, c, f', e, h, h1, h2⟩
  · cases e
  · cases e
    refine ⟨s.log ++ [(u, c)], fun v => ?_, ?_⟩
    · rw [callsOf_snoc]
      have h3 := h.prog v
      split
      · rename_i e
        subst e
        rw [h1] at h3
        exact ⟨s.todo u, h3⟩
      · exact ⟨vCall (s.th v) ++ s.todo v, by rw [← h3, List.append_assoc]⟩
    · obtain ⟨t', d', e1, h4, e2⟩ := seq_run (s.log.map (·.2)) (seqOk_of h0) (fun x => ⟨_, h.maps.maps x⟩)
      rw [histOf_log, if_pos rfl, dmap_run_snoc, e2 c.1] at h2
      dsimp only at h2
      have h5 := seq_step h4 c.1 c.2
      rw [h2] at h5
      rw [List.map_append, List.map_cons, List.map_nil, tracker_run_snoc, e1]
      exact h5

/-- C95: while recordings remain some thread can go on, even if a thread that asks for the exclusive lock holds
back all that would lock shared. -/
theorem recordings_progress (h0 : TrackerOk t names drv) {s : VSt}
    (hs : (VSt.begin t names drv mem prog).run sched = some (.ok s)) (hd : ¬ VDone s) :
    ∃ u, ¬ HeldBack s u ∧ (s.step u).isSome := by
  rcases vinv_run sched (vinv_begin h0 mem) hs with ⟨s', e, h⟩ | ⟨_, _, _, _, e, _⟩
  · cases e; exact vprogress h hd
  · cases e

/-- C95: no run takes more than seventeen steps per recording. -/
theorem recordings_bounded {r : Except Fault VSt}
    (hs : (VSt.begin t names drv mem prog).run sched = some r) : sched.length ≤ 17 * prog.flatten.length := by
  have h1 := (vrun_bounded sched (vfin_begin (t0 := t) (drv0 := drv) names mem) hs).1
  rw [vWork_begin names mem prog.length (Nat.le_refl _), List.take_length] at h1
  exact h1

/-- C95: every run that has not faulted can be continued until all recordings are made or one faults. -/
theorem recordings_finish (h0 : TrackerOk t names drv) {s : VSt}
    (hs : (VSt.begin t names drv mem prog).run sched = some (.ok s)) :
    ∃ rest r, (VSt.begin t names drv mem prog).run (sched ++ rest) = some r ∧ ∀ s', r = .ok s' → VDone s' := by
  suffices H : ∀ k s, VInv t drv prog s → VFin prog s → vWork s prog.length ≤ k →
      ∃ rest r, s.run rest = some r ∧ ∀ s', r = .ok s' → VDone s' by
    have hf := (vrun_bounded sched (vfin_begin (t0 := t) (drv0 := drv) names mem) hs).2 s rfl
    rcases vinv_run sched (vinv_begin h0 mem) hs with ⟨s', e, h⟩ | ⟨_, _, _, _, e, _⟩
    · cases e
      obtain ⟨rest, r, h1, h2⟩ := H _ s h hf (Nat.le_refl _)
      exact ⟨rest, r, by rw [vrun_append _ _ _ _ hs]; exact h1, h2⟩
    · cases e
  clear hs s
  intro k
  induction k with
  | zero =>
    intro s h hf hk
    by_cases hd : VDone s
    · exact ⟨[], _, rfl, fun s' e => by cases e; exact hd⟩
    · obtain ⟨u, -, hu⟩ := vprogress h hd
      obtain ⟨r, h1⟩ := Option.isSome_iff_exists.1 hu
      have := vWork_pos (vfin_lt hf h1) (vstep_cost h1)
      omega
  | succ k ih =>
    intro s h hf hk
    by_cases hd : VDone s
    · exact ⟨[], _, rfl, fun s' e => by cases e; exact hd⟩
    · obtain ⟨u, -, hu⟩ := vprogress h hd
      obtain ⟨r, h1⟩ := Option.isSome_iff_exists.1 hu
      cases r with
      | error f => exact ⟨[u], .error f, by simp [VSt.run, h1], fun s' e => by cases e⟩
      | ok s1 =>
        obtain ⟨h2, h3⟩ := vfin_step hf h1
        rcases vinv_step h h1 with ⟨_, e, h4⟩ | ⟨_, _, e, _⟩
        · cases e
          obtain ⟨rest, r, h5, h6⟩ := ih s1 h4 h2 (by omega)
          exact ⟨u :: rest, r, by simp [VSt.run, h1, h5], h6⟩
        · cases e

/-! ### Merges -/

theorem histOf_append (h1 h2 : List (Nat × Rec)) (sym : Nat) :
    histOf (h1 ++ h2) sym = histOf h1 sym ++ histOf h2 sym := by
  simp [histOf]

theorem mem_histOf {hist : List (Nat × Rec)} {sym : Nat} {r : Rec} : r ∈ histOf hist sym ↔ (sym, r) ∈ hist := by
  unfold histOf
  rw [List.mem_map]
  constructor
  · rintro ⟨⟨a, b⟩, h1, rfl⟩
    rw [List.mem_filter] at h1
    simp only [beq_iff_eq] at h1
    rw [← h1.2]
    exact h1.1
  · intro h
    exact ⟨_, List.mem_filter.2 ⟨h, by simp⟩, rfl⟩

theorem neverSplits_append {h1 : List Rec} (hn : NeverSplits h1) (h2 : List Rec) :
    (∀ a ∈ h1 ++ h2, ∀ b ∈ h2, ¬ (a.bounds.lower < b.bounds.lower ∧ b.bounds.upper < a.bounds.upper)) →
    NeverSplits (h1 ++ h2) := by
  rintro h pre r post e ⟨l, a, l', rfl, h3, h4, h5⟩
  rcases List.append_eq_append_iff.1 e with ⟨x, e1, e2⟩ | ⟨x, e1, e2⟩
  · exact h a (by rw [e]; simp) r (by rw [e2]; simp) ⟨h3, h4⟩
  · cases x with
    | nil =>
      simp only [List.nil_append] at e2
      exact h a (by rw [e]; simp) r (by rw [← e2]; simp) ⟨h3, h4⟩
    | cons y x =>
      simp only [List.cons_append, List.cons.injEq] at e2
      obtain ⟨rfl, -⟩ := e2
      exact hn _ r x e1 ⟨l, a, l', rfl, h3, h4, h5⟩

theorem lastDriver_then_merges {h1 h2 : List Rec} (hm : ∀ r ∈ h2, r.merge = true) (p : Int) (n : Option Nat) :
    LastDriver (h1 ++ h2) p n ↔ LastDriver h1 p n ∨ ∃ r ∈ h2, r.Covers p ∧ ∃ d ∈ r.drivers, d.node = n := by
  constructor
  · rintro ⟨pre, r, post, e, hc, hd, hp⟩
    rcases List.append_eq_append_iff.1 e with ⟨x, e1, e2⟩ | ⟨x, e1, e2⟩
    · exact .inr ⟨r, by rw [e2]; simp, hc, hd⟩
    · cases x with
      | nil =>
        simp only [List.nil_append] at e2
        exact .inr ⟨r, by rw [← e2]; simp, hc, hd⟩
      | cons y x =>
        simp only [List.cons_append, List.cons.injEq] at e2
        obtain ⟨rfl, rfl⟩ := e2
        exact .inl ⟨pre, r, x, e1, hc, hd, fun q hq => hp q (by simp [hq])⟩
  · rintro (⟨pre, r, post, rfl, hc, hd, hp⟩ | ⟨r, hr, hc, hd⟩)
    · refine ⟨pre, r, post ++ h2, by simp, hc, hd, fun q hq hq' => ?_⟩
      rcases List.mem_append.1 hq with hq | hq
      · exact hp q hq hq'
      · exact hm q hq
    · obtain ⟨x, y, rfl⟩ := List.append_of_mem hr
      exact ⟨h1 ++ x, r, y, by simp, hc, hd, fun q hq _ => hm q (by simp [hq])⟩

theorem mem_callsOf {log : List (Nat × Nat × Rec)} {c : Nat × Rec} : c ∈ log.map (·.2) ↔ ∃ u, c ∈ callsOf log u := by
  unfold callsOf
  simp only [List.mem_map, List.mem_filter, beq_iff_eq]
  constructor
  · rintro ⟨x, h1, rfl⟩; exact ⟨x.1, x, ⟨h1, rfl⟩, rfl⟩
  · rintro ⟨u, x, ⟨h1, -⟩, rfl⟩; exact ⟨x, h1, rfl⟩

/-- C95 for the recordings of Phase 2 (all merges, source/NetlistBuilder.hpp:241-244): recordings made by several threads after a history `pre` never fault, and
when the threads are done, each bit of a signal has its drivers after `pre` plus those of every thread's
recordings that cover it, whatever the schedule was. Partial: no recording of a thread may lie strictly inside
another recording for the signal (then the schedule matters, `schedule_changes_drivers`). -/
theorem concurrent_merges_exact_partial {pre : List (Nat × Rec)} (hp : ({} : Tracker).run [] pre = .ok (t, drv))
    (h0 : TrackerOk t names drv)
    (hr : ∀ sym, InRange (histOf (pre ++ prog.flatten) sym)) (hn : ∀ sym, NeverSplits (histOf pre sym))
    (hi : ∀ a ∈ pre ++ prog.flatten, ∀ b ∈ prog.flatten, a.1 = b.1 →
      ¬ (a.2.bounds.lower < b.2.bounds.lower ∧ b.2.bounds.upper < a.2.bounds.upper))
    (hm : ∀ c ∈ prog.flatten, c.2.merge = true) {r : Except Fault VSt}
    (hs : (VSt.begin t names drv mem prog).run sched = some r) :
    ∃ s, r = .ok s ∧ (VDone s → ∀ (sym : Nat) (q : BitRange), ∃ out, s.trk.intervals s.drv sym q = .ok out ∧
      ∀ p : Int, q.lower ≤ p → p ≤ q.upper → ∀ n,
        (∃ x ∈ out, x.1.lower ≤ p ∧ p ≤ x.1.upper ∧ ∃ d ∈ x.2, d.node = n) ↔
          LastDriver (histOf pre sym) p n ∨
          ∃ c ∈ prog.flatten, c.1 = sym ∧ c.2.Covers p ∧ ∃ d ∈ c.2.drivers, d.node = n) := by
  have hflat : ∀ (log : List (Nat × Nat × Rec)), (∀ u, callsOf log u <+: (prog[u]?).getD []) →
      ∀ c ∈ log.map (·.2), c ∈ prog.flatten := by
    intro log h c hc
    obtain ⟨u, hu⟩ := mem_callsOf.1 hc
    have h1 := (h u).subset hu
    cases hq : prog[u]? with
    | none => rw [hq] at h1; simp at h1
    | some l => rw [hq] at h1; exact List.mem_flatten.2 ⟨l, List.mem_of_getElem? hq, h1⟩
  have hseq : ∀ (log : List (Nat × Nat × Rec)), (∀ u, callsOf log u <+: (prog[u]?).getD []) →
      ∃ t' d', t.run drv (log.map (·.2)) = .ok (t', d') ∧ ∀ (sym : Nat) (q : BitRange),
        ∃ out, t'.intervals d' sym q = .ok out ∧ ∀ p : Int, q.lower ≤ p → p ≤ q.upper →
          ∀ n, (∃ x ∈ out, x.1.lower ≤ p ∧ p ≤ x.1.upper ∧ ∃ d ∈ x.2, d.node = n) ↔
            LastDriver (histOf (pre ++ log.map (·.2)) sym) p n := by
    intro log h
    have hf := hflat log h
    obtain ⟨t', d', e1, h1⟩ := tracker_exact_partial (hist := pre ++ log.map (·.2))
      (fun sym r hr' => hr sym r (by
        rw [mem_histOf] at hr' ⊢
        rcases List.mem_append.1 hr' with hr' | hr'
        · exact List.mem_append_left _ hr'
        · exact List.mem_append_right _ (hf _ hr')))
      (fun sym => by
        rw [histOf_append]
        refine neverSplits_append (hn sym) _ fun a ha b hb => ?_
        rw [← histOf_append] at ha
        rw [mem_histOf] at ha hb
        refine hi (sym, a) ?_ (sym, b) (hf _ hb) rfl
        rcases List.mem_append.1 ha with ha | ha
        · exact List.mem_append_left _ ha
        · exact List.mem_append_right _ (hf _ ha))
    rw [tracker_run_append, hp] at e1
    exact ⟨t', d', e1, h1⟩
  cases r with
  | error f =>
    obtain ⟨hist, h1, h2⟩ := recordings_fault_free h0 hs
    obtain ⟨t', d', e, -⟩ := hseq hist h1
    rw [e] at h2
    cases h2
  | ok s =>
    refine ⟨s, rfl, fun hd sym q => ?_⟩
    obtain ⟨⟨t', d', e1, -, e2⟩, h1, h2⟩ := recordings_linearizable h0 hs
    obtain ⟨t1, d1, e3, h3⟩ := hseq s.log h1
    rw [e1] at e3
    cases e3
    obtain ⟨out, e4, h4⟩ := h3 sym q
    refine ⟨out, by rw [e2]; exact e4, fun p hp1 hp2 n => ?_⟩
    rw [h4 p hp1 hp2 n, histOf_append, lastDriver_then_merges]
    · constructor
      · rintro (h5 | ⟨r, hr, h5⟩)
        · exact .inl h5
        · exact .inr ⟨(sym, r), hflat s.log h1 _ (mem_histOf.1 hr), rfl, h5⟩
      · rintro (h5 | ⟨c, hc, rfl, h5⟩)
        · exact .inl h5
        · refine .inr ⟨c.2, mem_histOf.2 ?_, h5⟩
          obtain ⟨l, hl, hc⟩ := List.mem_flatten.1 hc
          obtain ⟨u, hu⟩ := List.getElem?_of_mem hl
          refine mem_callsOf.2 ⟨u, ?_⟩
          rw [h2 hd u, hu]
          exact hc
    · intro r hr'
      exact hm (sym, r) (hflat s.log h1 _ (mem_histOf.1 hr'))

/-! ### Examples -/

/-- Two threads record drivers for signal 5, one of them also for signal 6. -/
def vrProg : List (List (Nat × Rec)) :=
  [[(5, ⟨⟨3, 0⟩, [⟨some 1, 0⟩], true⟩)],
    [(5, ⟨⟨5, 2⟩, [⟨some 2, 0⟩], true⟩), (6, ⟨⟨0, 0⟩, [⟨some 3, 0⟩], true⟩)]]

/-- Both find no slot for signal 5 and draw a number; thread 1 enters its number, 1, and the number 0 is
wasted; both find the vectors too short, and thread 0 gets the exclusive lock after thread 1 has grown them. -/
def vrSched : List Nat :=
  [0, 0, 0, 1, 1, 1, 1, 0, 0, 1, 1, 1, 0, 1, 0, 1, 1, 1, 1, 1, 1, 1, 1, 1, 0, 0, 0, 0, 0, 0, 1, 0, 0, 0] ++
    List.replicate 16 1

theorem vr_ok : TrackerOk {} [] [] := ⟨by simp, by simp, by simp, by simp, by simp⟩

theorem vr_run : ∃ s, (VSt.begin {} [] [] 0 vrProg).run vrSched = some (.ok s) ∧ VDone s ∧
    s.trk.slots = [(5, 1), (6, 2)] ∧ s.names = [(1, 5), (2, 6)] ∧ s.drv.length = 3 ∧
    s.log.map (·.1) = [1, 0, 1] ∧
    (s.trk.intervals s.drv 5 ⟨5, 0⟩).toOption.map (·.map fun x => (x.1.lower, x.1.upper, x.2.map (·.node))) =
      some [(0, 1, [some 1]), (2, 3, [some 2, some 1]), (4, 5, [some 2])] := by
  have hrun : ∃ s, (VSt.begin {} [] [] 0 vrProg).run vrSched = some (.ok s) := ⟨_, rfl⟩
  obtain ⟨s, hs⟩ := hrun
  have hf := (vrun_bounded vrSched (vfin_begin (t0 := {}) (drv0 := []) [] 0) hs).2 s rfl
  have hv : (match (generalizing := false) (VSt.begin {} [] [] 0 vrProg).run vrSched with
      | some (.ok s) => some (vRank (s.th 0), vRank (s.th 1), (s.todo 0).length, (s.todo 1).length, s.trk.slots,
          s.names, s.drv.length, s.log.map (·.1),
          (s.trk.intervals s.drv 5 ⟨5, 0⟩).toOption.map (·.map fun x => (x.1.lower, x.1.upper, x.2.map (·.node))))
      | _ => none) = some (0, 0, 0, 0, [(5, 1), (6, 2)], [(1, 5), (2, 6)], 3, [1, 0, 1],
          some [(0, 1, [some 1]), (2, 3, [some 2, some 1]), (4, 5, [some 2])]) := by rfl
  rw [hs] at hv
  simp only [Option.some.injEq, Prod.mk.injEq] at hv
  obtain ⟨v0, v1, v2, v3, v4, v5, v6, v7, v8⟩ := hv
  have hi : ∀ u, vRank (s.th u) = 0 → s.th u = .idle := by
    intro u
    cases s.th u <;> simp [vRank]
  refine ⟨s, hs, fun u => ?_, v4, v5, v6, v7, v8⟩
  match u with
  | 0 => exact ⟨hi 0 v0, List.length_eq_zero_iff.1 v2⟩
  | 1 => exact ⟨hi 1 v1, List.length_eq_zero_iff.1 v3⟩
  | u + 2 => exact hf (u + 2) (by simp [vrProg])

/-- The theorems apply to this run. -/
example : ∃ s, (VSt.begin {} [] [] 0 vrProg).run vrSched = some (.ok s) ∧ TrackerOk s.trk s.names s.drv ∧
    (∀ u, callsOf s.log u = (vrProg[u]?).getD []) ∧
    ∃ out, s.trk.intervals s.drv 5 ⟨5, 0⟩ = .ok out ∧ ∀ n,
      (∃ x ∈ out, x.1.lower ≤ 2 ∧ 2 ≤ x.1.upper ∧ ∃ d ∈ x.2, d.node = n) ↔ n = some 1 ∨ n = some 2 := by
  obtain ⟨s, hs, hd, -⟩ := vr_run
  refine ⟨s, hs, recordings_tracker_ok vr_ok hs hd, (recordings_linearizable vr_ok hs).2.2 hd, ?_⟩
  obtain ⟨s', e, h⟩ := concurrent_merges_exact_partial (pre := []) rfl vr_ok
    (by
      intro sym r hr
      rw [mem_histOf] at hr
      simp only [vrProg, List.nil_append, List.flatten_cons, List.flatten_nil, List.append_nil, List.cons_append,
        List.mem_cons, Prod.mk.injEq, List.not_mem_nil, or_false] at hr
      rcases hr with ⟨-, rfl⟩ | ⟨-, rfl⟩ | ⟨-, rfl⟩ <;> decide)
    (fun sym => neverSplits_nil) (by unfold vrProg; decide) (by unfold vrProg; decide) hs
  cases e
  obtain ⟨out, e, h1⟩ := h hd 5 ⟨5, 0⟩
  refine ⟨out, e, fun n => ?_⟩
  rw [h1 2 (by decide) (by decide) n]
  constructor
  · rintro (⟨_, _, _, h2, _⟩ | ⟨c, hc, h2, h3, d, h4, rfl⟩)
    · simp [histOf] at h2
    · simp only [vrProg, List.flatten_cons, List.flatten_nil, List.append_nil, List.cons_append, List.nil_append,
        List.mem_cons, List.not_mem_nil, or_false] at hc
      rcases hc with rfl | rfl | rfl
      · simp only [List.mem_singleton] at h4; subst h4; exact .inl rfl
      · simp only [List.mem_singleton] at h4; subst h4; exact .inr rfl
      · cases h2
  · rintro (rfl | rfl)
    · exact .inr ⟨(5, ⟨⟨3, 0⟩, [⟨some 1, 0⟩], true⟩), by simp [vrProg], rfl,
        (by unfold Rec.Covers; decide), _, List.mem_singleton.2 rfl, rfl⟩
    · exact .inr ⟨(5, ⟨⟨5, 2⟩, [⟨some 2, 0⟩], true⟩), by simp [vrProg], rfl,
        (by unfold Rec.Covers; decide), _, List.mem_singleton.2 rfl, rfl⟩

/-- Stopped while both threads ask for the exclusive lock, one can go on; the run can be finished, and takes at
most 51 steps. -/
example : ∃ s, (VSt.begin {} [] [] 0 vrProg).run (vrSched.take 15) = some (.ok s) ∧
    (∃ c i, s.th 0 = .upgrade c i) ∧ (∃ c i, s.th 1 = .upgrade c i) ∧ (∃ u, ¬ HeldBack s u ∧ (s.step u).isSome) ∧
    ∃ rest r, (VSt.begin {} [] [] 0 vrProg).run (vrSched.take 15 ++ rest) = some r ∧ (∀ s', r = .ok s' → VDone s') ∧
      (vrSched.take 15 ++ rest).length ≤ 51 := by
  obtain ⟨s, hs⟩ : ∃ s, (VSt.begin {} [] [] 0 vrProg).run (vrSched.take 15) = some (.ok s) := ⟨_, rfl⟩
  have hv : (match (generalizing := false) (VSt.begin {} [] [] 0 vrProg).run (vrSched.take 15) with
      | some (.ok s) => some (vRank (s.th 0), vRank (s.th 1))
      | _ => none) = some (9, 9) := by rfl
  rw [hs] at hv
  simp only [Option.some.injEq, Prod.mk.injEq] at hv
  have hi : ∀ u, vRank (s.th u) = 9 → ∃ c i, s.th u = .upgrade c i := by
    intro u
    cases s.th u <;> simp [vRank]
  have hn : ¬ VDone s := fun h => by
    obtain ⟨c, i, e⟩ := hi 0 hv.1
    rw [(h 0).1] at e
    cases e
  obtain ⟨rest, r, h1, h2⟩ := recordings_finish vr_ok hs
  exact ⟨s, hs, hi 0 hv.1, hi 1 hv.2, recordings_progress vr_ok hs hn, rest, r, h1, h2, recordings_bounded h1⟩

/-- A tracker left by recordings made one at a time. -/
example : ∃ t drv, ({} : Tracker).run [] [(5, ⟨⟨7, 0⟩, [⟨some 1, 0⟩], true⟩)] = .ok (t, drv) ∧ t.slots = [(5, 0)] ∧
    TrackerOk t (t.slots.map fun p => (p.2, p.1)) drv := by
  obtain ⟨t, drv, h⟩ : ∃ t drv, ({} : Tracker).run [] [(5, ⟨⟨7, 0⟩, [⟨some 1, 0⟩], true⟩)] = .ok (t, drv) :=
    ⟨_, _, rfl⟩
  refine ⟨t, drv, h, ?_, recorded_tracker_ok h⟩
  cases h
  rfl

/-- A thread records bits 4..3 of a signal, another bits 2..0, after bits 7..0 were recorded. -/
def vsProg : List (List (Nat × Rec)) :=
  [[(5, ⟨⟨4, 3⟩, [⟨some 2, 0⟩], true⟩)], [(5, ⟨⟨2, 0⟩, [⟨some 3, 0⟩], true⟩)]]

/-- The drivers of bit 6 after a schedule of these threads. -/
def vsDrivers (sched : List Nat) : Option (List (List (Option Nat))) :=
  match ({} : Tracker).run [] [(5, ⟨⟨7, 0⟩, [⟨some 1, 0⟩], true⟩)] with
  | .error _ => none
  | .ok (t, drv) =>
    match (VSt.begin t [(0, 5)] drv 1 vsProg).run sched with
    | some (.ok s) => (s.trk.intervals s.drv 5 ⟨6, 6⟩).toOption.map (·.map fun x => x.2.map (·.node))
    | _ => none

/-- C95: the drivers of a bit depend on the schedule. If the first thread records before the second one, bit 6
is given the driver of bits 2..0. -/
theorem schedule_changes_drivers :
    vsDrivers (List.replicate 9 0 ++ List.replicate 9 1) = some [[some 1, some 3]] ∧
    vsDrivers (List.replicate 9 1 ++ List.replicate 9 0) = some [[some 1]] := by
  constructor <;> rfl

/-- A recording that overflows faults also in a concurrent run. -/
example : ∃ sched f, (VSt.begin {} [] [] 0
      [[(5, ⟨⟨2147483647, 0⟩, [⟨some 1, 0⟩], false⟩)], [(5, ⟨⟨2147483647, -1⟩, [⟨some 2, 0⟩], true⟩)]]).run sched =
        some (.error f) ∧
    ∃ hist : List (Nat × Nat × Rec), ({} : Tracker).run [] (hist.map (·.2)) = .error f := by
  have h : (VSt.begin {} [] [] 0
      [[(5, ⟨⟨2147483647, 0⟩, [⟨some 1, 0⟩], false⟩)], [(5, ⟨⟨2147483647, -1⟩, [⟨some 2, 0⟩], true⟩)]]).run
        (List.replicate 17 0 ++ List.replicate 7 1) = some (.error .oob) := by rfl
  obtain ⟨hist, -, h1⟩ := recordings_fault_free vr_ok h
  exact ⟨_, _, h, hist, h1⟩

end Verif.Props

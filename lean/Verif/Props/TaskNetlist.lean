import Verif.Proofs.TaskIn
import Verif.Props.Tasks

/-!
C98: the parallel Phase 2 in small steps (source/BuildPipeline.cpp:57-109) gives the netlist of the sequential build.
-/
namespace Verif.Props
open Verif.Model Verif.Spec Verif.Proofs

/-- Operations begun in any order can be completed to a schedule. -/
theorem schedule_completes {D : Design} {ord : Tracker → List (Nat × Nat)} {bs : List Deferred} {as : Nat → List BAct}
    (hb : ScriptsOf D ord bs as) {M : List (Nat × BAct)} (hM : ∀ w, opsOf M w <+: as w) :
    ∃ M', ScheduleOf as (M ++ M') := by
  have hex : ∀ w, ∃ t, opsOf M w ++ t = as w := hM
  refine ⟨oneByOne (fun w => Classical.choose (hex w)) (List.range bs.length), fun w => ?_⟩
  rw [opsOf_append, oneByOne_ops _ List.nodup_range]
  have h := Classical.choose_spec (hex w)
  split
  · exact h
  · rename_i hw
    have hw : bs.length ≤ w := by simpa using hw
    have hnil : opsOf M w = [] := (List.append_eq_nil_iff.1 (h.trans (hb.rest w hw))).1
    rw [hnil, hb.rest w hw]
    rfl

/-- C98 for given operations. -/
theorem steps_schedule {D : Design} {ord : Tracker → List (Nat × Nat)} {s : Bld} {hist : List (Nat × Rec)}
    {bs : List Deferred} {as : Nat → List BAct} (hs : Begun s hist) (hb : ScriptsOf D ord bs as)
    (hsep : Separate D s as) (hi : TaskInv D s.net.g.nextNode bs.length (.init s as)) {l : List Nat} {p : TaskSt}
    (hr : (TaskSt.init s as).run D l = some p) :
    (∀ e, s.runBlocks D ord bs = .error e → TasksDone p → ∃ u, p.failed u ≠ none) ∧
    ∀ s1, s.runBlocks D ord bs = .ok s1 → (∀ u, p.failed u = none) ∧ (TasksDone p →
      ∃ s2 f, s2 = p.b.drain bs.length p.bufs ∧ (∀ x ∈ s.net.g.nodes, f x = x) ∧ Renamed f s1.net s2.net ∧
        BothEnds s2.net ∧ ∃ n1 n2, s.build D ord bs = .ok n1 ∧ resolveSequential (s2.ctx D) s2.net s2.queue = .ok n2 ∧ Renamed f n1 n2 ∧
          BothEnds n2 ∧ ∀ (addr : Nat → Nat), (∀ a b, addr a = addr b → a = b) → ∀ n3,
            ResolvesParallel (s2.ctx D) addr s2.net s2.queue n3 → BothEnds n3 ∧ ∀ x ∈ n1.g.nodes, ∀ y ∈ n1.g.nodes,
              (Joined n3 (f x) (f y) ↔ Joined n1 x y)) := by
  have hall : ∀ {L r}, Coupled D as s p L r → TasksDone p → ScheduleOf as L := by
    intro L r hc hd w
    have := hc.ops w
    rw [(hd w).2.2, List.append_nil] at this
    exact this
  have hin := taskInv_run l hi hr
  refine ⟨fun e he hd => ?_, fun s1 h1 => ?_⟩
  · rcases Coupled.runs hsep l (coupled_init hs) hi hr with ⟨L, r, hc⟩ | ⟨h, _⟩
    · obtain ⟨e', h'⟩ := any_schedule_fault_partial hs hb hsep (hall hc hd) he
      rw [hc.run] at h'
      cases h'
    · exact h
  · rcases Coupled.runs hsep l (coupled_init hs) hi hr with ⟨L, r, hc⟩ | ⟨_, M, hM, f, hf⟩
    · refine ⟨hc.failed, fun hd => ?_⟩
      obtain ⟨r', e2, bufs, s2, k1, k2, f, k3, k4, n1, n2, k5, k6, k7, k8⟩ :=
        any_schedule_partial hs hb hsep (hall hc hd) h1
      rw [hc.run] at k1
      cases k1
      have hq : (p.b.drain bs.length p.bufs).queue = s2.queue := by
        rw [k2]
        simp only [Bld.drain, hc.rest.queue]
      have hx : (p.b.drain bs.length p.bufs).ctx D = s2.ctx D := by
        rw [k2]
        simp only [Bld.ctx, Bld.drain, hc.rest.vars, hc.rest.trk, hc.rest.drv]
      have hn2 : s2.net = r.net := by rw [k2]; rfl
      have hfr : NetFit s2.net := by rw [hn2]; exact .of_reach hc.reach
      have hfp : NetFit p.b.net := ⟨hc.out, by rw [hc.rest.nodes, hc.rest.next, ← hn2]; exact hfr.lt⟩
      have hal : NetAlike s2.net p.b.net := by
        rw [hn2]
        exact ⟨hc.rest.nodes.symm, hc.rest.data.symm, fun x y => (hc.done hd x y).symm⟩
      obtain ⟨n2', m1, m2⟩ := hal.sequential hfr hfp k6
      have hbe := (inLag_run l (inLag_init hs as) hi hr).done hin hd
      refine ⟨_, f, rfl, k3, renamed_alike k4 hal.symm, hbe, n1, n2', k5, ?_, renamed_alike k7 m2.symm,
        both_sequential hbe m1, fun addr ha n3 h3 => ⟨both_parallel hbe h3, fun x hx' y hy => ?_⟩⟩
      · rw [hx, hq]
        exact m1
      · rw [hx, hq] at h3
        obtain ⟨n3', m3, m4⟩ := hal.symm.parallel hfp hfr h3
        rw [← k8 addr ha n3' m3 x hx' y hy, joined_iff, joined_iff, m4.annots]
    · obtain ⟨M', hM'⟩ := schedule_completes hb hM
      obtain ⟨r', e2, bufs, _, k1, _⟩ := any_schedule_partial hs hb hsep hM' h1
      rw [tasks_append, hf] at k1
      cases k1

/-- C98: let the tasks of the parallel Phase 2 take their steps (the creation of a node, a lookup, taking or releasing
a mutex, the test for an edge, the appending of one, ...) in any order. If no bit is written in two blocks, nor in a
block and through a port, then when all have come to the end the graph is the one of the sequential build up to the
names of the new nodes, with the same annotations on the edges in the same order, also after Phase 4, and the in
lists of the nodes agree with the out lists. No task fails,
unless the sequential build fails; then one does.

Partial: the writes inside each block are aligned (`Plain`), memory is sequentially consistent, and recording a driver
and registering a register are one step each. -/
theorem small_steps_partial {D : Design} {ord : Tracker → List (Nat × Nat)} {s : Bld} {hist : List (Nat × Rec)}
    {bs : List Deferred} (hs : Begun s hist) (hv : Visits ord) (hd : OneWriter D hist bs) :
    ∃ as, ScriptsOf D ord bs as ∧ ∀ l p, (TaskSt.init s as).run D l = some p →
    (∀ e, s.runBlocks D ord bs = .error e → TasksDone p → ∃ u, p.failed u ≠ none) ∧
    ∀ s1, s.runBlocks D ord bs = .ok s1 → (∀ u, p.failed u = none) ∧ (TasksDone p →
      ∃ s2 f, s2 = p.b.drain bs.length p.bufs ∧ (∀ x ∈ s.net.g.nodes, f x = x) ∧ Renamed f s1.net s2.net ∧
        BothEnds s2.net ∧ ∃ n1 n2, s.build D ord bs = .ok n1 ∧ resolveSequential (s2.ctx D) s2.net s2.queue = .ok n2 ∧ Renamed f n1 n2 ∧
          BothEnds n2 ∧ ∀ (addr : Nat → Nat), (∀ a b, addr a = addr b → a = b) → ∀ n3,
            ResolvesParallel (s2.ctx D) addr s2.net s2.queue n3 → BothEnds n3 ∧ ∀ x ∈ n1.g.nodes, ∀ y ∈ n1.g.nodes,
              (Joined n3 (f x) (f y) ↔ Joined n1 x y)) := by
  obtain ⟨as, h1, h2, h3⟩ := scripts_tame (D := D) hv hd.plain
  refine ⟨as, h1, fun l p hr => steps_schedule hs h1 (oneWriter_separate hs hd h2 h1.rest) ?_ hr⟩
  exact taskInv_init hs h3 (fun sym z hz => unwritten_noReg h2 h1.rest (hd.ports sym z hz)) h1.rest

/-- C98 for whole designs: the parallel Phase 2 that follows Phase 1, in small steps, always comes to an end, and then
Phase 4 gives the netlist of the sequential build up to the names of the new nodes.

Partial: as above, and the ranges that ports drive are aligned. -/
theorem small_steps_netlist_partial {E : TravEnv} {boxed : Str → Str → Bool} {ord : Tracker → List (Nat × Nat)}
    {top : List Member} (h : Elaborated E boxed top) (hv : Visits ord)
    (hd : ∀ c, phase1 E top = .ok c → Plain (histWrites c.hist) ∧ OneWriter E.D c.hist c.blocks) :
    ∃ c s as, phase1 E top = .ok c ∧ c.start = .ok s ∧ ScriptsOf E.D ord c.blocks as ∧
      ∀ l p, (TaskSt.init s as).run E.D l = some p →
        l.length ≤ opsCost E.D as c.blocks.length ∧ (∃ l' p', p.run E.D l' = some p' ∧ TasksDone p') ∧
        (∀ e, netlist E ord top = .error e → TasksDone p → ∃ u, p.failed u ≠ none) ∧
        ∀ n1, netlist E ord top = .ok n1 → (∀ u, p.failed u = none) ∧ (TasksDone p →
          ∃ s2 n2 f, s2 = p.b.drain c.blocks.length p.bufs ∧
            resolveSequential (s2.ctx E.D) s2.net s2.queue = .ok n2 ∧ Renamed f n1 n2 ∧
            BothEnds n2 ∧ (∀ x ∈ c.b.net.g.nodes, f x = x) ∧
            ∀ (addr : Nat → Nat), (∀ a b, addr a = addr b → a = b) → ∀ n3,
              ResolvesParallel (s2.ctx E.D) addr s2.net s2.queue n3 → BothEnds n3 ∧ ∀ x ∈ n1.g.nodes, ∀ y ∈ n1.g.nodes,
                (Joined n3 (f x) (f y) ↔ Joined n1 x y)) := by
  obtain ⟨c, hc, _, _⟩ := walked h
  obtain ⟨hp, ho⟩ := hd c hc
  obtain ⟨s, h1, h2, h3⟩ := begun_of h hc hp
  obtain ⟨as, h4, h5, h6⟩ := scripts_tame (D := E.D) hv ho.plain
  have hi := taskInv_init h3 h6 (fun sym z hz => unwritten_noReg h5 h4.rest (ho.ports sym z hz)) h4.rest
  refine ⟨c, s, as, hc, h1, h4, fun l p hr => ?_⟩
  obtain ⟨k1, k2⟩ := steps_schedule h3 h4 (oneWriter_separate h3 ho h5 h4.rest) hi hr
  have hn : netlist E ord top = s.build E.D ord c.blocks := by simp only [netlist, hc, h1]
  refine ⟨?_, tasks_finish _ (taskInv_run l hi hr) (Nat.le_refl _), ?_, ?_⟩
  · have := tasks_bounded l hi hr
    rw [tasksCost_init] at this
    omega
  · intro e he hdone
    cases hb : s.runBlocks E.D ord c.blocks with
    | error e' => exact k1 e' hb hdone
    | ok s1 =>
      obtain ⟨_, _, _, _, _, _, n1, _, k3, _⟩ := (k2 s1 hb).2 hdone
      rw [hn, k3] at he
      cases he
  · intro n1 he
    cases hb : s.runBlocks E.D ord c.blocks with
    | error e' =>
      rw [hn, Bld.build, hb] at he
      cases he
    | ok s1 =>
      refine ⟨(k2 s1 hb).1, fun hdone => ?_⟩
      obtain ⟨s2, f, k3, k4, _, _, m1, n2, k5, k6, k7, k9, k8⟩ := (k2 s1 hb).2 hdone
      rw [hn, k5] at he
      cases he
      exact ⟨s2, n2, f, k3, k6, k7, k9, by rw [← h2]; exact k4, k8⟩

/-! ### Concrete designs -/

/-- The hypotheses are met by a design with four blocks, one of them a flip-flop. -/
example : Begun dsBld dsHist ∧ Visits Tracker.slots ∧ OneWriter flowCtx.D dsHist dsBlocks ∧
    ∃ s1, dsBld.runBlocks flowCtx.D Tracker.slots dsBlocks = .ok s1 :=
  ⟨ds_begun, dsPrepared.visits, ds_oneWriter, _, rfl⟩

/-- Two of its blocks taking turns: while the first does its operations, the second has made the edge to its register
and not yet annotated it, which no operations done one after the other show; at the end it is annotated, and both are
done without a fault. -/
example : ScriptsOf flowCtx.D Tracker.slots [dsB, dsQ] dsOps ∧
    ((TaskSt.init dsBld dsOps).run flowCtx.D [1, 1, 1, 1, 1, 1, 1, 1, 1, 0, 0, 1, 0, 0, 1, 0]).any (fun p =>
      (annots p.b.net 1 2).map (fun a => a.symbol.map (·.path)) = [none] && p.ops 0 = []) = true ∧
    ((TaskSt.init dsBld dsOps).run flowCtx.D
      [1, 1, 1, 1, 1, 1, 1, 1, 1, 0, 0, 1, 0, 0, 1, 0, 1, 1, 1, 1, 1, 1]).any (fun p =>
      (annots p.b.net 1 2).map (fun a => a.symbol.map (·.path)) = [some ['d']] && p.cur 1 = .free && p.jobs 1 = [] &&
        p.ops 1 = [] && p.ops 0 = [] && p.failed 0 = none && p.failed 1 = none) = true :=
  ⟨ds_scripts, by decide +kernel, by decide +kernel⟩

/-- The theorem applies to the design of C64, with two levels of instances. -/
example : ∃ c s as, phase1 hdE hdTop = .ok c ∧ c.start = .ok s ∧ ScriptsOf hdE.D Tracker.slots c.blocks as ∧
    ∀ l p, (TaskSt.init s as).run hdE.D l = some p → TasksDone p → ∃ n2 f,
      resolveSequential ((p.b.drain c.blocks.length p.bufs).ctx hdE.D) (p.b.drain c.blocks.length p.bufs).net
        (p.b.drain c.blocks.length p.bufs).queue = .ok n2 ∧ Renamed f hdNet n2 := by
  obtain ⟨c, s, as, h1, h2, h3, h4⟩ := small_steps_netlist_partial hd_elab (ord := Tracker.slots) (fun _ => .refl _)
    (fun c hc => by rw [hd_phase1] at hc; exact Except.ok.inj hc ▸ hd_oneWriter)
  refine ⟨c, s, as, h1, h2, h3, fun l p hr hd => ?_⟩
  obtain ⟨_, n2, f, rfl, k2, k3, _⟩ := ((h4 l p hr).2.2.2 hdNet hd_net).2 hd
  exact ⟨n2, f, k2, k3⟩

end Verif.Props

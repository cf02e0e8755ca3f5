import Verif.Spec.Tasks
import Verif.Proofs.TasksEnd
import Verif.Props.ScheduleNetlist

/-!
C96 and C97: the parallel Phase 2 in small steps (source/BuildPipeline.cpp:57-109). Its tasks cannot deadlock, end
after a bounded number of steps, and never touch the annotations of an edge at the same time.
-/
namespace Verif.Props
open Verif.Model Verif.Spec Verif.Proofs

theorem unwritten_noReg {D : Design} {bs : List Deferred} {as : Nat → List BAct}
    (ha : ∀ (w : Nat) b, bs[w]? = some b → Does D b (as w)) (hr : ∀ w, bs.length ≤ w → as w = []) {z : Nat}
    (hz : Unwritten bs z) : NoReg as z := by
  intro w b i h
  by_cases hw : w < bs.length
  · have hb := List.getElem?_eq_getElem hw
    obtain ⟨u, hu, e, _⟩ := (ha w _ hb).covered _ h z b (.reg _) _ (range_bit b)
    exact hz _ (List.mem_of_getElem? hb) u hu e
  · rw [hr w (by omega)] at h
    cases h

theorem begun_lt {s : Bld} {hist : List (Nat × Rec)} (hs : Begun s hist) {n : Nat} (hn : n ∈ s.net.g.nodes) :
    n < s.net.g.nextNode :=
  ((ginv_start hs.reach).base n hn).2

theorem taskInv_init {D : Design} {s : Bld} {hist : List (Nat × Rec)} {as : Nat → List BAct} {K : Nat}
    (hs : Begun s hist) (ht : ∀ w, Tame [] (as w)) (hp : ∀ sym z, D.port sym = some z → NoReg as z)
    (hr : ∀ w, K ≤ w → as w = []) : TaskInv D s.net.g.nextNode K (.init s as) where
  own := fun n u => ⟨(fun h => by cases h), (fun h => h.elim)⟩
  shp := fun _ => trivial
  req := fun u r h => by cases h
  frame := ⟨Nat.le_refl _, (fun u n h => by cases h), (fun u v n h => by cases h)⟩
  cur := fun u x y h => by cases h
  jobs := fun u j h => by cases h
  ops := fun u => ht u
  noreg := fun u sym b i h y e => hp y sym e u b i h
  vars := fun sym e he => .inl (begun_lt hs (hs.vars sym e he))
  ports := fun _ z _ e he => begun_lt hs (hs.vars z e he)
  fin := fun u hu => ⟨hr u hu, rfl, rfl⟩

/-- The operations of the blocks of a design, and what the tasks keep while doing them. -/
theorem tasks_inv {D : Design} {ord : Tracker → List (Nat × Nat)} {s : Bld} {hist : List (Nat × Rec)}
    {bs : List Deferred} (hs : Begun s hist) (hv : Visits ord) (hw : ∀ b ∈ bs, Plain (allWrites b.stmt))
    (hp : ∀ sym z, D.port sym = some z → Unwritten bs z) :
    ∃ as, ScriptsOf D ord bs as ∧ TaskInv D s.net.g.nextNode bs.length (.init s as) := by
  obtain ⟨as, h1, h2, h3⟩ := scripts_tame (D := D) hv hw
  exact ⟨as, h1, taskInv_init hs h3 (fun sym z hz => unwritten_noReg h2 h1.rest (hp sym z hz)) h1.rest⟩

/-- C96: the tasks of the parallel Phase 2 cannot deadlock. Let them take their steps (the creation of a node, a
lookup, taking or releasing a mutex, ...) in any order: as long as one of them has something left to do some task
can go on, they take no more steps than the given number, and from every state they can reach the end.

Partial: the writes inside each block are aligned (`Plain`), no block writes a port by its own name, memory is
sequentially consistent, and recording a driver is one step. -/
theorem tasks_end_partial {D : Design} {ord : Tracker → List (Nat × Nat)} {s : Bld} {hist : List (Nat × Rec)}
    {bs : List Deferred} (hs : Begun s hist) (hv : Visits ord) (hw : ∀ b ∈ bs, Plain (allWrites b.stmt))
    (hp : ∀ sym z, D.port sym = some z → Unwritten bs z) :
    ∃ as, ScriptsOf D ord bs as ∧ ∀ l p, (TaskSt.init s as).run D l = some p →
      (¬ TasksDone p → ∃ u, u < bs.length ∧ (p.step D u).isSome) ∧ l.length ≤ opsCost D as bs.length ∧
      ∃ l' p', p.run D l' = some p' ∧ TasksDone p' := by
  obtain ⟨as, h1, h2⟩ := tasks_inv (D := D) hs hv hw hp
  refine ⟨as, h1, fun l p hr => ?_⟩
  have h := taskInv_run l h2 hr
  refine ⟨fun hd => ?_, ?_, tasks_finish _ h (Nat.le_refl _)⟩
  · obtain ⟨u, hu⟩ := tasks_no_stuck h hd
    exact ⟨u, h.fin_lt hu, hu⟩
  · have := tasks_bounded l h2 hr
    rw [tasksCost_init] at this
    omega

/-- C97: in the parallel Phase 2 all dependencies between two nodes are added by one task: if at some time one task
is adding one, and at the same or a later time another is, they are the same task. So no two tasks read or write the
annotations of an edge at the same time, which no mutex protects.

Partial: as for C96. -/
theorem one_adder_partial {D : Design} {ord : Tracker → List (Nat × Nat)} {s : Bld} {hist : List (Nat × Rec)}
    {bs : List Deferred} (hs : Begun s hist) (hv : Visits ord) (hw : ∀ b ∈ bs, Plain (allWrites b.stmt))
    (hp : ∀ sym z, D.port sym = some z → Unwritten bs z) :
    ∃ as, ScriptsOf D ord bs as ∧ ∀ l p, (TaskSt.init s as).run D l = some p → ∀ l' p', p.run D l' = some p' →
      ∀ u v x y, Adding p u x y → Adding p' v x y → u = v := by
  obtain ⟨as, h1, h2⟩ := tasks_inv (D := D) hs hv hw hp
  refine ⟨as, h1, fun l p hr l' p' hr' u v x y hu hv => ?_⟩
  have h := taskInv_run l h2 hr
  have h' := taskInv_run l' h hr'
  exact allowed_one h'.frame ((h.cur u x y hu).mono h.frame (frame_run l' h hr')) (h'.cur v x y hv)

/-- C96 and C97 for whole designs: the parallel Phase 2 that follows Phase 1 cannot deadlock, and all dependencies
between two nodes are added by one task.

Partial: as above, and the ranges that ports drive are aligned. -/
theorem phase2_ends_partial {E : TravEnv} {boxed : Str → Str → Bool} {ord : Tracker → List (Nat × Nat)}
    {top : List Member} (h : Elaborated E boxed top) (hv : Visits ord)
    (hd : ∀ c, phase1 E top = .ok c → Plain (histWrites c.hist) ∧ (∀ b ∈ c.blocks, Plain (allWrites b.stmt)) ∧
      ∀ sym z, E.D.port sym = some z → Unwritten c.blocks z) :
    ∃ c s as, phase1 E top = .ok c ∧ c.start = .ok s ∧ ScriptsOf E.D ord c.blocks as ∧
      ∀ l p, (TaskSt.init s as).run E.D l = some p →
        (¬ TasksDone p → ∃ u, u < c.blocks.length ∧ (p.step E.D u).isSome) ∧
        l.length ≤ opsCost E.D as c.blocks.length ∧
        (∃ l' p', p.run E.D l' = some p' ∧ TasksDone p') ∧
        ∀ l' p', p.run E.D l' = some p' → ∀ u v x y, Adding p u x y → Adding p' v x y → u = v := by
  obtain ⟨c, hc, _, _⟩ := walked h
  obtain ⟨hp, hb, ho⟩ := hd c hc
  obtain ⟨s, h1, _, h3⟩ := begun_of h hc hp
  obtain ⟨as, h4, h2⟩ := tasks_inv (D := E.D) h3 hv hb ho
  refine ⟨c, s, as, hc, h1, h4, fun l p hr => ?_⟩
  have h := taskInv_run l h2 hr
  refine ⟨fun hd => ?_, ?_, tasks_finish _ h (Nat.le_refl _), fun l' p' hr' u v x y hu hv => ?_⟩
  · obtain ⟨u, hu⟩ := tasks_no_stuck h hd
    exact ⟨u, h.fin_lt hu, hu⟩
  · have := tasks_bounded l h2 hr
    rw [tasksCost_init] at this
    omega
  · have h' := taskInv_run l' h hr'
    exact allowed_one h'.frame ((h.cur u x y hu).mono h.frame (frame_run l' h hr')) (h'.cur v x y hv)

/-! ### A concrete design -/

/-- The theorem applies to the design of C64, with two levels of instances. -/
example : ∃ c s as, phase1 hdE hdTop = .ok c ∧ c.start = .ok s ∧
    ScriptsOf hdE.D Tracker.slots c.blocks as ∧ ∀ l p, (TaskSt.init s as).run hdE.D l = some p →
      ∃ l' p', p.run hdE.D l' = some p' ∧ TasksDone p' := by
  obtain ⟨c, s, as, h1, h2, h3, h4⟩ := phase2_ends_partial hd_elab (ord := Tracker.slots) (fun _ => .refl _)
    (fun c hc => by
      rw [hd_phase1] at hc
      exact Except.ok.inj hc ▸ ⟨hd_oneWriter.1, hd_oneWriter.2.plain, hd_oneWriter.2.ports⟩)
  exact ⟨c, s, as, h1, h2, h3, fun l p hr => (h4 l p hr).2.2.1⟩

/-- The hypotheses are met by a design with four blocks, one of them a flip-flop. -/
example : Begun dsBld dsHist ∧ Visits Tracker.slots ∧ (∀ b ∈ dsBlocks, Plain (allWrites b.stmt)) ∧
    (∀ sym z, flowCtx.D.port sym = some z → Unwritten dsBlocks z) ∧ dsBlocks.length = 4 :=
  ⟨ds_begun, dsPrepared.visits, ds_oneWriter.plain, ds_oneWriter.ports, rfl⟩

/-- Two of its blocks can take turns: here the second is adding the dependency of its register when the first
begins, and both come to the end. -/
example : ScriptsOf flowCtx.D Tracker.slots [dsB, dsQ] dsOps ∧
    ((TaskSt.init dsBld dsOps).run flowCtx.D [1, 1, 1, 1, 1, 1, 1, 1, 1, 0, 0, 1, 0, 0, 1, 0]).any (fun p =>
      addingAt (p.cur 1) = some (1, 2) && p.jobs 0 = [] && p.ops 0 = []) = true ∧
    ((TaskSt.init dsBld dsOps).run flowCtx.D
      [1, 1, 1, 1, 1, 1, 1, 1, 1, 0, 0, 1, 0, 0, 1, 0, 1, 1, 1, 1, 1, 1]).any (fun p =>
      p.cur 1 = .free && p.jobs 1 = [] && p.ops 1 = [] && p.ops 0 = []) = true :=
  ⟨ds_scripts, by decide +kernel, by decide +kernel⟩

/-- Operations of no block: two tasks, each of which makes a register and adds a dependency from it to the register
of the other. -/
def crossOps (w : Nat) : List BAct :=
  if w = 0 then [.node (.state ['p'] ['p'] (ln 1) ⟨0, 7⟩), .reg 5 ⟨0, 7⟩ 0, .extra 6 ⟨0, 7⟩ [⟨some 0, 0⟩]]
  else if w = 1 then
    [.node (.state ['q'] ['q'] (ln 2) ⟨0, 7⟩), .reg 6 ⟨0, 7⟩ 0, .extra 5 ⟨0, 7⟩ [⟨some 0, 0⟩]] else []

/-- What C96 says is not true of any operations: these can deadlock. -/
theorem cross_deadlock : ((TaskSt.init dsBld crossOps).run { flowCtx.D with kind := fun _ => .variable }
    [0, 0, 1, 1, 0, 0, 0, 0, 0, 1, 1, 1, 1, 1]).any (fun p => addingAt (p.cur 0) = some (1, 2) &&
      addingAt (p.cur 1) = some (2, 1) && (p.step { flowCtx.D with kind := fun _ => .variable } 0).isNone &&
      (p.step { flowCtx.D with kind := fun _ => .variable } 1).isNone) = true := by decide +kernel

end Verif.Props

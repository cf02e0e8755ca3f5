import Verif.Proofs.Tasks

/-! The parallel Phase 2 in small steps ends. -/
namespace Verif.Proofs
open Verif.Model Verif.Spec

variable {D : Design} {p p' : TaskSt} {u : Nat}

/-- Steps a task still has to take inside `addDependency`, at most. -/
def curCost (p : TaskSt) (u : Nat) : Nat :=
  match p.cur u with
  | .free => 0
  | .edge _ _ => phaseWeight (p.th u) + 1
  | .first _ => phaseWeight (p.th u) + 10
  | .second _ => phaseWeight (p.th u) + 1

/-- Steps a task still has to take, at most. -/
def taskCost (D : Design) (p : TaskSt) (u : Nat) : Nat :=
  curCost p u + 20 * (p.jobs u).length + ((p.ops u).map (opCost D)).sum

/-- The same for the first `k` tasks. -/
def tasksCost (D : Design) (p : TaskSt) (k : Nat) : Nat := ((List.range k).map (taskCost D p)).sum

theorem sum_lt {f g : Nat → Nat} {u : Nat} : ∀ {k : Nat}, u < k → (∀ v, v ≠ u → f v = g v) → f u < g u →
    ((List.range k).map f).sum < ((List.range k).map g).sum := by
  intro k
  induction k with
  | zero => intro h; omega
  | succ k ih =>
    intro hk h1 h2
    rw [List.range_succ, List.map_append, List.map_append, List.sum_append, List.sum_append]
    simp only [List.map_cons, List.map_nil, List.sum_cons, List.sum_nil]
    by_cases hu : u = k
    · subst hu
      have : (List.range u).map f = (List.range u).map g :=
        List.map_congr_left fun v hv => h1 v (by have := List.mem_range.1 hv; omega)
      rw [this]
      omega
    · have := ih (by omega) h1 h2
      have := h1 k (fun h => hu h.symm)
      omega

theorem driversOf_len {env : List Nat} {l : List DriverInfo} : ∀ {l' : List DriverInfo}, driversOf env l = some l' →
    l'.length = l.length ∧ l'.map DriverInfo.lsp = l.map DriverInfo.lsp := by
  induction l with
  | nil => intro l' h; cases h; exact ⟨rfl, rfl⟩
  | cons a l ih =>
    intro l' h
    simp only [driversOf] at h
    split at h
    · rename_i m ds h1 h2
      cases h
      obtain ⟨h3, h4⟩ := ih h2
      exact ⟨by simp [h3], by simp [h4]⟩
    · cases h

theorem sum_map_le {α : Type} {f g : α → Nat} (h : ∀ a, f a ≤ g a) (l : List α) : (l.map f).sum ≤ (l.map g).sum := by
  induction l with
  | nil => exact Nat.le_refl _
  | cons a l ih =>
    simp only [List.map_cons, List.sum_cons]
    exact Nat.add_le_add (h a) ih

theorem start_cost {s s' : Bld} {env env' : List Nat} {a : BAct} {js : List TaskJob}
    (h : s.start D env a = .ok (s', env', js)) : 20 * js.length < opCost D a := by
  cases a with
  | node d =>
    simp only [Bld.start] at h
    split at h <;> cases h
    simp [opCost]
  | read sym b i k =>
    simp only [Bld.start] at h
    split at h <;> cases h
    simp [opCost]
  | drive sym b l =>
    simp only [Bld.start] at h
    split at h <;> cases h
    simp [opCost]
  | edge i j =>
    simp only [Bld.start] at h
    split at h <;> cases h
    simp [opCost]
  | dep d =>
    simp only [Bld.start] at h
    split at h <;> cases h
    simp [opCost]
  | mread r b i =>
    simp only [Bld.start] at h
    split at h <;> cases h
    simp only [List.length_map, opCost]
    omega
  | hook sym b l =>
    simp only [Bld.start] at h
    split at h
    · cases h
    · rename_i l' hl
      cases h
      have h1 := (driversOf_len hl).1
      have h2 : (hookupDeps D s sym b l').length ≤ l'.length := by
        unfold hookupDeps
        split
        · simp
        · split
          · simp
          · exact List.length_filterMap_le _ _
      simp only [List.length_map, opCost]
      omega
  | extra sym b l =>
    simp only [Bld.start] at h
    split at h
    · cases h
    · rename_i l' hl
      cases h
      have h1 := (driversOf_len hl).2
      have h2 : (l.map fun d => (D.iface sym d.lsp).length + 1).sum =
          (l'.map fun d => (D.iface sym d.lsp).length + 1).sum := by
        have : ∀ x : List DriverInfo, (x.map fun d => (D.iface sym d.lsp).length + 1) =
            (x.map DriverInfo.lsp).map fun e => (D.iface sym e).length + 1 := by
          intro x
          rw [List.map_map]
          rfl
        rw [this, this, h1]
      simp only [opCost, h2, List.length_flatMap]
      refine Nat.lt_of_le_of_lt (Nat.mul_le_mul_left 20 (sum_map_le (α := DriverInfo) (g := fun d =>
        (D.iface sym d.lsp).length + 1) ?_ l')) (Nat.lt_add_of_pos_left Nat.one_pos)
      intro d
      split
      · simp
      · split <;> simp
  | reg sym b i =>
    simp only [Bld.start] at h
    split at h <;> cases h
    simp [opCost]
  | fault f => cases h

/-- A step changes nothing for other tasks and brings the task nearer to its end. -/
theorem task_local (hs : p.step D u = some p') (hi : p.cur u = .free → p.th u = .idle) :
    (∀ v, v ≠ u → p'.cur v = p.cur v ∧ p'.jobs v = p.jobs v ∧ p'.ops v = p.ops v ∧ p'.th v = p.th v) ∧
    taskCost D p' u < taskCost D p u := by
  have hcall : ∀ (q : TaskSt) (c : TaskPhase) (r : Req) (v : Nat), v ≠ u →
      (q.call u c r).cur v = q.cur v ∧ (q.call u c r).jobs v = q.jobs v ∧ (q.call u c r).ops v = q.ops v ∧
        (q.call u c r).th v = q.th v :=
    fun q c r v hv => ⟨setAt_ne _ _ hv, rfl, rfl, setAt_ne _ _ hv⟩
  unfold TaskSt.step at hs
  split at hs
  · rename_i hc
    split at hs
    · rename_i j js hj
      cases hs
      have hq : ∀ v, v ≠ u → setAt p.jobs u js v = p.jobs v := fun v hv => setAt_ne _ _ hv
      have hfirst : ∀ (q : TaskSt) (d : Dep) (r : Req), q.jobs u = js → q.ops u = p.ops u →
          taskCost D (q.call u (.first d) r) u < taskCost D p u := by
        intro q d r h1 h2
        simp only [taskCost, curCost, TaskSt.call, setAt_same, phaseWeight, h1, h2, hc, hj, List.length_cons]
        omega
      have hnone : ∀ (q : TaskSt), q.jobs u = js → q.ops u = p.ops u → q.cur u = .free →
          taskCost D q u < taskCost D p u := by
        intro q h1 h2 h3
        simp only [taskCost, curCost, h1, h2, h3, hc, hj, List.length_cons]
        omega
      cases j with
      | plain x y =>
        refine ⟨fun v hv => ?_, ?_⟩
        · obtain ⟨h1, h2, h3, h4⟩ := hcall { p with jobs := setAt p.jobs u js } (.edge x y) ⟨true, x, y⟩ v hv
          exact ⟨h1, h2.trans (hq v hv), h3, h4⟩
        · simp only [taskCost, curCost, TaskSt.begin, TaskSt.call, setAt_same, phaseWeight, hc, hj, List.length_cons]
          omega
      | dep d =>
        refine ⟨fun v hv => ?_, hfirst { p with jobs := setAt p.jobs u js } d _ (setAt_same _ _ _) rfl⟩
        obtain ⟨h1, h2, h3, h4⟩ := hcall { p with jobs := setAt p.jobs u js } (.first d) ⟨true, d.src, d.tgt⟩ v hv
        exact ⟨h1, h2.trans (hq v hv), h3, h4⟩
      | into x sym c ref b own =>
        simp only [TaskSt.begin]
        split
        · exact ⟨fun v hv => ⟨rfl, hq v hv, rfl, rfl⟩,
            hnone { p with jobs := setAt p.jobs u js } (setAt_same _ _ _) rfl hc⟩
        · refine ⟨fun v hv => ?_, hfirst { p with jobs := setAt p.jobs u js } _ _ (setAt_same _ _ _) rfl⟩
          exact ⟨setAt_ne _ _ hv, hq v hv, rfl, setAt_ne _ _ hv⟩
      | outOf sym c y ref b =>
        simp only [TaskSt.begin]
        split
        · exact ⟨fun v hv => ⟨rfl, hq v hv, rfl, rfl⟩,
            hnone { p with jobs := setAt p.jobs u js } (setAt_same _ _ _) rfl hc⟩
        · refine ⟨fun v hv => ?_, hfirst { p with jobs := setAt p.jobs u js } _ _ (setAt_same _ _ _) rfl⟩
          exact ⟨setAt_ne _ _ hv, hq v hv, rfl, setAt_ne _ _ hv⟩
    · rename_i hj
      split at hs
      · cases hs
      · rename_i a as ho
        cases hs
        unfold TaskSt.take
        split
        · refine ⟨fun v hv => ⟨rfl, rfl, setAt_ne _ _ hv, rfl⟩, ?_⟩
          simp only [taskCost, curCost, setAt_same, hc, hj, ho, List.map_cons, List.sum_cons, List.map_nil,
            List.sum_nil, List.length_nil]
          have : 0 < opCost D a := by cases a <;> simp only [opCost] <;> omega
          omega
        · rename_i s' env' js hst
          have := start_cost hst
          refine ⟨fun v hv => ⟨rfl, setAt_ne _ _ hv, setAt_ne _ _ hv, rfl⟩, ?_⟩
          simp only [taskCost, curCost, setAt_same, hc, hj, ho, List.map_cons, List.sum_cons, List.length_nil]
          omega
  · rename_i hc
    split at hs
    · rename_i hth
      cases hs
      have hleave : ∀ q : TaskSt, q.jobs = p.jobs → q.ops = p.ops → q.th = p.th → q.cur = setAt p.cur u .free →
          (∀ v, v ≠ u → q.cur v = p.cur v ∧ q.jobs v = p.jobs v ∧ q.ops v = p.ops v ∧ q.th v = p.th v) ∧
          taskCost D q u < taskCost D p u := by
        intro q h1 h2 h3 h4
        refine ⟨fun v hv => ⟨by rw [h4, setAt_ne _ _ hv], by rw [h1], by rw [h2], by rw [h3]⟩, ?_⟩
        simp only [taskCost, curCost, h1, h2, h4, setAt_same]
        cases hcu : p.cur u with
        | free => exact (hc hcu).elim
        | _ => dsimp only; omega
      unfold TaskSt.back
      split
      · rename_i d e h1 h2
        dsimp only
        split
        · exact hleave _ rfl rfl rfl rfl
        · refine ⟨fun v hv => hcall p _ _ v hv, ?_⟩
          simp only [taskCost, curCost, TaskSt.call, setAt_same, phaseWeight, h1, hth]
          omega
      · exact hleave _ rfl rfl rfl rfl
      · exact hleave _ rfl rfl rfl rfl
    · unfold TaskSt.lockStep at hs
      split at hs
      · cases hs
      · rename_i l hl
        cases hs
        obtain ⟨h1, h2⟩ := step_local hl
        refine ⟨fun v hv => ⟨rfl, rfl, rfl, (h1 v hv).1⟩, ?_⟩
        have h4 : p.locks.todo u = [] := rfl
        rw [h4] at h2
        have h5 : p.locks.th u = p.th u := rfl
        rw [h5] at h2
        simp only [taskCost, curCost]
        cases hcu : p.cur u with
        | free => exact (hc hcu).elim
        | _ => dsimp only; simp only [List.length_nil] at h2; omega

variable {N K : Nat}

theorem tasks_cost_step (h : TaskInv D N K p) (hs : p.step D u = some p') : tasksCost D p' K < tasksCost D p K := by
  have hu := h.fin_lt (u := u) (by rw [hs]; rfl)
  obtain ⟨h1, h2⟩ := task_local hs h.idle
  refine sum_lt hu (fun v hv => ?_) h2
  obtain ⟨e1, e2, e3, e4⟩ := h1 v hv
  simp only [taskCost, curCost, e1, e2, e3, e4]

theorem tasks_bounded (l : List Nat) : ∀ {p p' : TaskSt}, TaskInv D N K p → p.run D l = some p' →
    l.length + tasksCost D p' K ≤ tasksCost D p K := by
  induction l with
  | nil => intro p p' _ hs; cases hs; simp
  | cons u l ih =>
    intro p p' h hs
    simp only [TaskSt.run] at hs
    split at hs
    · cases hs
    · rename_i p1 h1
      have := ih (taskInv_step h h1) hs
      have := tasks_cost_step h h1
      simp only [List.length_cons]
      omega

/-- Every state reached can be run to the end. -/
theorem tasks_finish : ∀ (k : Nat) {p : TaskSt}, TaskInv D N K p → tasksCost D p K ≤ k →
    ∃ l p', p.run D l = some p' ∧ TasksDone p' := by
  intro k
  induction k with
  | zero =>
    intro p h hk
    refine ⟨[], p, rfl, Classical.byContradiction fun hd => ?_⟩
    obtain ⟨u, hu⟩ := tasks_no_stuck h hd
    obtain ⟨p', hp'⟩ := Option.isSome_iff_exists.1 hu
    have := tasks_cost_step h hp'
    omega
  | succ k ih =>
    intro p h hk
    by_cases hd : TasksDone p
    · exact ⟨[], p, rfl, hd⟩
    · obtain ⟨u, hu⟩ := tasks_no_stuck h hd
      obtain ⟨p1, hp1⟩ := Option.isSome_iff_exists.1 hu
      have := tasks_cost_step h hp1
      obtain ⟨l, p', h1, h2⟩ := ih (taskInv_step h hp1) (by omega)
      exact ⟨u :: l, p', by simp only [TaskSt.run, hp1]; exact h1, h2⟩

theorem frame_step (h : TaskInv D N K p) (hs : p.step D u = some p') : FrameLe (frameOf p) (frameOf p') := by
  unfold TaskSt.step at hs
  split at hs
  · split at hs
    · rename_i j js hj
      cases hs
      cases j with
      | plain => exact .refl _
      | dep => exact .refl _
      | into => simp only [TaskSt.begin]; split <;> exact .refl _
      | outOf => simp only [TaskSt.begin]; split <;> exact .refl _
    · split at hs
      · cases hs
      · rename_i a as ho
        cases hs
        have ht := h.ops u
        rw [ho] at ht
        unfold TaskSt.take
        split
        · exact .refl _
        · rename_i s' env' js hst
          exact (taskStart_ok (N := N) (u := u) (s := { p.b with queue := p.bufs u }) (envs := p.envs) h.frame ht.1
            (fun sym b i e => h.noreg u sym b i (by rw [ho, e]; exact List.mem_cons_self)) h.ports hst).le
  · split at hs
    · cases hs
      unfold TaskSt.back
      split
      · dsimp only
        split <;> exact .refl _
      · exact .refl _
      · exact .refl _
    · unfold TaskSt.lockStep at hs
      split at hs
      · cases hs
      · rename_i l hl
        cases hs
        have hn : l.g.nextNode = p.b.net.g.nextNode := step_next hl
        exact ⟨fun _ _ hm => hm, fun _ _ => rfl, Nat.le_of_eq hn.symm⟩

theorem frame_run (l : List Nat) : ∀ {p p' : TaskSt}, TaskInv D N K p → p.run D l = some p' →
    FrameLe (frameOf p) (frameOf p') := by
  induction l with
  | nil => intro p p' _ hs; cases hs; exact .refl _
  | cons u l ih =>
    intro p p' h hs
    simp only [TaskSt.run] at hs
    split at hs
    · cases hs
    · rename_i p1 h1
      exact (frame_step h h1).trans (ih (taskInv_step h h1) hs)

theorem tasks_run_append (a : List Nat) : ∀ (p : TaskSt) (b : List Nat),
    p.run D (a ++ b) = (p.run D a).bind fun p' => p'.run D b := by
  induction a with
  | nil => intro p b; rfl
  | cons u a ih =>
    intro p b
    simp only [List.cons_append, TaskSt.run]
    cases p.step D u with
    | none => rfl
    | some p1 => exact ih p1 b

theorem tasksCost_init (s : Bld) (as : Nat → List BAct) (k : Nat) :
    tasksCost D (.init s as) k = opsCost D as k := by
  unfold tasksCost opsCost
  congr 1
  refine List.map_congr_left fun w _ => ?_
  simp [taskCost, curCost, TaskSt.init]

end Verif.Proofs

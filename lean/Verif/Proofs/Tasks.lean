import Verif.Spec.Tasks
import Verif.Proofs.Locks
import Verif.Proofs.ScriptSim

/-! Invariants of the parallel Phase 2 in small steps. -/
namespace Verif.Proofs
open Verif.Model Verif.Spec

/-! ### Which nodes belong to whom -/

/-- The nodes of the tasks, and of every node its kind; nodes are numbered below `next`. -/
structure TaskFrame where
  envs : Nat → List Nat
  kind : Nat → NodeKind
  next : Nat

/-- The nodes in a state of the tasks. -/
def frameOf (p : TaskSt) : TaskFrame := ⟨p.envs, p.b.net.kind, p.b.net.g.nextNode⟩

/-- A node of task `u` that no other task can find. -/
def TaskFrame.Priv (F : TaskFrame) (u n : Nat) : Prop := n ∈ F.envs u ∧ F.kind n ≠ .state

/-- A node that tasks can find: one of Phase 1 or a register. -/
def TaskFrame.Vis (F : TaskFrame) (N n : Nat) : Prop := n < N ∨ (n < F.next ∧ F.kind n = .state)

/-- Task `u` may add dependencies from `x` to `y`. -/
def TaskFrame.Allowed (F : TaskFrame) (N u x y : Nat) : Prop :=
  (F.Priv u x ∧ (F.Priv u y ∨ F.Vis N y)) ∨ (F.Vis N x ∧ F.Priv u y) ∨
    (x ∈ F.envs u ∧ F.kind x = .state ∧ y < N)

/-- The nodes of tasks are new and no two tasks share one. -/
structure FrameOk (N : Nat) (F : TaskFrame) : Prop where
  next : N ≤ F.next
  envs : ∀ u n, n ∈ F.envs u → N ≤ n ∧ n < F.next
  apart : ∀ u v n, n ∈ F.envs u → n ∈ F.envs v → u = v

/-- More nodes. -/
structure FrameLe (F G : TaskFrame) : Prop where
  envs : ∀ u n, n ∈ F.envs u → n ∈ G.envs u
  kind : ∀ n, n < F.next → G.kind n = F.kind n
  next : F.next ≤ G.next

theorem FrameLe.refl (F : TaskFrame) : FrameLe F F := ⟨fun _ _ h => h, fun _ _ => rfl, Nat.le_refl _⟩

theorem FrameLe.trans {F G H : TaskFrame} (h : FrameLe F G) (h' : FrameLe G H) : FrameLe F H :=
  ⟨fun u n hn => h'.envs u n (h.envs u n hn), fun n hn => (h'.kind n (by have := h.next; omega)).trans (h.kind n hn),
    by have := h.next; have := h'.next; omega⟩

variable {N : Nat} {F G : TaskFrame}

theorem TaskFrame.Priv.mono (hF : FrameOk N F) (h : FrameLe F G) {u n : Nat} (hp : F.Priv u n) : G.Priv u n :=
  ⟨h.envs u n hp.1, by rw [h.kind n (hF.envs u n hp.1).2]; exact hp.2⟩

theorem TaskFrame.Vis.mono (h : FrameLe F G) {n : Nat} (hp : F.Vis N n) : G.Vis N n := by
  rcases hp with hp | ⟨h1, h2⟩
  · exact .inl hp
  · exact .inr ⟨by have := h.next; omega, by rw [h.kind n h1]; exact h2⟩

theorem TaskFrame.Allowed.mono (hF : FrameOk N F) (h : FrameLe F G) {u x y : Nat} (hp : F.Allowed N u x y) :
    G.Allowed N u x y := by
  rcases hp with ⟨h1, h2⟩ | ⟨h1, h2⟩ | ⟨h1, h2, h3⟩
  · refine .inl ⟨h1.mono hF h, ?_⟩
    rcases h2 with h2 | h2
    · exact .inl (h2.mono hF h)
    · exact .inr (h2.mono h)
  · exact .inr (.inl ⟨h1.mono h, h2.mono hF h⟩)
  · exact .inr (.inr ⟨h.envs u x h1, by rw [h.kind x (hF.envs u x h1).2]; exact h2, h3⟩)

theorem priv_not_vis (hF : FrameOk N F) {u n : Nat} (h : F.Priv u n) : ¬ F.Vis N n := by
  rintro (h1 | ⟨_, h1⟩)
  · have := (hF.envs u n h.1).1; omega
  · exact h.2 h1

/-- The dependencies between two nodes are the business of one task. -/
theorem allowed_one (hF : FrameOk N F) {u v x y : Nat} (h : F.Allowed N u x y) (h' : F.Allowed N v x y) : u = v := by
  rcases h with ⟨h1, _⟩ | ⟨h1, h2⟩ | ⟨h1, h2, h3⟩
  · rcases h' with ⟨g1, _⟩ | ⟨g1, _⟩ | ⟨g1, _⟩
    · exact hF.apart u v x h1.1 g1.1
    · exact (priv_not_vis hF h1 g1).elim
    · exact hF.apart u v x h1.1 g1
  · rcases h' with ⟨g1, _⟩ | ⟨_, g2⟩ | ⟨_, _, g3⟩
    · exact (priv_not_vis hF g1 h1).elim
    · exact hF.apart u v y h2.1 g2.1
    · have := (hF.envs u y h2.1).1; omega
  · rcases h' with ⟨g1, _⟩ | ⟨_, g2⟩ | ⟨g1, _⟩
    · exact hF.apart u v x h1 g1.1
    · have := (hF.envs v y g2.1).1; omega
    · exact hF.apart u v x h1 g1

/-! ### The operations of a block -/

/-- The operation uses registers of its block only as targets of dependencies and in `hook`, and registers only them; `ks` says which of
the nodes the block has made are registers. -/
def TameAct (ks : List Bool) : BAct → Prop
  | .edge a b => ks[a]? ≠ some true ∧ ks[b]? ≠ some true
  | .dep d => ks[d.src]? ≠ some true
  | .mread _ _ a => ks[a]? ≠ some true
  | .extra _ _ l => ∀ d ∈ l, ∀ i, d.node = some i → ks[i]? ≠ some true
  | .reg _ _ i => ks[i]? = some true
  | _ => True

/-- The nodes of the block after the operation. -/
def kindsAfter (ks : List Bool) : BAct → List Bool
  | .node d => ks ++ [decide (d.kind = .state)]
  | _ => ks

/-- All operations are such. -/
def Tame : List Bool → List BAct → Prop
  | _, [] => True
  | ks, a :: as => TameAct ks a ∧ Tame (kindsAfter ks a) as

/-- Which nodes of a task are registers. -/
def TaskFrame.kinds (F : TaskFrame) (u : Nat) : List Bool := (F.envs u).map fun n => decide (F.kind n = .state)

/-- A job that task `u` may do. -/
def JobOk (D : Design) (N : Nat) (F : TaskFrame) (u : Nat) : TaskJob → Prop
  | .plain x y => F.Allowed N u x y
  | .dep d => F.Allowed N u d.src d.tgt
  | .into x .. => F.Priv u x
  | .outOf _ _ y _ _ => F.Priv u y

theorem JobOk.mono {D : Design} (hF : FrameOk N F) (h : FrameLe F G) {u : Nat} {j : TaskJob} (hj : JobOk D N F u j) :
    JobOk D N G u j := by
  cases j with
  | plain x y => exact TaskFrame.Allowed.mono hF h hj
  | dep d => exact TaskFrame.Allowed.mono hF h hj
  | into => exact TaskFrame.Priv.mono hF h hj
  | outOf => exact TaskFrame.Priv.mono hF h hj

/-! ### The invariant -/

/-- `N` nodes were made before Phase 2 and there are `K` tasks. -/
structure TaskInv (D : Design) (N K : Nat) (p : TaskSt) : Prop where
  own : ∀ n u, p.owner n = some u ↔ holds (p.th u) n
  shp : ∀ u, shape (p.th u)
  req : ∀ u r, reqOf (p.th u) = some r → addingAt (p.cur u) = some (r.src, r.tgt)
  frame : FrameOk N (frameOf p)
  cur : ∀ u x y, addingAt (p.cur u) = some (x, y) → (frameOf p).Allowed N u x y
  jobs : ∀ u, ∀ j ∈ p.jobs u, JobOk D N (frameOf p) u j
  ops : ∀ u, Tame ((frameOf p).kinds u) (p.ops u)
  noreg : ∀ u sym b i, BAct.reg sym b i ∈ p.ops u → ∀ y, D.port y ≠ some sym
  vars : ∀ sym, ∀ e ∈ p.b.vars sym, (frameOf p).Vis N e.val
  ports : ∀ y z, D.port y = some z → ∀ e ∈ p.b.vars z, e.val < N
  fin : ∀ u, K ≤ u → p.ops u = [] ∧ p.jobs u = [] ∧ p.cur u = .free

variable {D : Design} {K : Nat} {p p' : TaskSt}

theorem TaskInv.idle (h : TaskInv D N K p) {u : Nat} (hc : p.cur u = .free) : p.th u = .idle := by
  have := h.req u
  rw [hc] at this
  cases ht : p.th u <;> first | rfl | (rw [ht] at this; cases this _ rfl)

theorem setAt_same {α : Type} (f : Nat → α) (u : Nat) (a : α) : setAt f u a u = a := by simp [setAt]

theorem setAt_ne {α : Type} (f : Nat → α) {u v : Nat} (a : α) (h : v ≠ u) : setAt f u a v = f v := by simp [setAt, h]

/-- Something all tasks have still holds after one task's entry is replaced. -/
theorem setAt_all {α : Type} {P : Nat → α → Prop} {f : Nat → α} {u : Nat} {a : α} (h : ∀ v, P v (f v)) (ha : P u a)
    (v : Nat) : P v (setAt f u a v) := by
  unfold setAt
  split
  · subst_vars; exact ha
  · exact h v

theorem entryLookup_mem {t : VarTab} {sym n : Nat} {c : BitRange} (h : t.lookup sym c = some n) :
    ∃ e ∈ t sym, e.val = n := by
  unfold VarTab.lookup at h
  cases hf : (imFind (t sym) c.lower c.upper).find? fun e => decide ((⟨e.lo, e.hi⟩ : BitRange) = c) with
  | none => rw [hf] at h; cases h
  | some e =>
    rw [hf] at h
    cases h
    have := List.mem_of_find?_eq_some hf
    unfold imFind at this
    exact ⟨e, (List.mem_filter.1 this).1, rfl⟩

theorem TaskInv.fin_lt (h : TaskInv D N K p) {u : Nat} (hs : (p.step D u).isSome) : u < K := by
  apply Classical.byContradiction
  intro hc
  obtain ⟨h1, h2, h3⟩ := h.fin u (by omega)
  simp [TaskSt.step, h1, h2, h3] at hs

/-- A task enters `addEdge` or `addNewEdge`. -/
theorem TaskInv.call (h : TaskInv D N K p) {u : Nat} (hu : u < K) (hi : p.th u = .idle) {c : TaskPhase} {r : Req}
    (hc : addingAt c = some (r.src, r.tgt)) (ha : (frameOf p).Allowed N u r.src r.tgt) :
    TaskInv D N K (p.call u c r) := by
  have hf : frameOf (p.call u c r) = frameOf p := rfl
  refine ⟨?_, ?_, ?_, hf ▸ h.frame, ?_, hf ▸ h.jobs, hf ▸ h.ops, h.noreg, hf ▸ h.vars, h.ports, ?_⟩
  · intro n v
    show p.owner n = some v ↔ holds (setAt p.th u (.lockSrc r) v) n
    by_cases hv : v = u
    · subst hv; rw [setAt_same, h.own, hi]; exact Iff.rfl
    · rw [setAt_ne _ _ hv]; exact h.own n v
  · exact setAt_all (P := fun _ t => shape t) h.shp trivial
  · intro v r'
    show reqOf (setAt p.th u (.lockSrc r) v) = some r' → addingAt (setAt p.cur u c v) = some (r'.src, r'.tgt)
    by_cases hv : v = u
    · subst hv; rw [setAt_same, setAt_same]; rintro ⟨⟩; exact hc
    · rw [setAt_ne _ _ hv, setAt_ne _ _ hv]; exact h.req v r'
  · rw [hf]
    refine setAt_all (P := fun v c => ∀ x y, addingAt c = some (x, y) → (frameOf p).Allowed N v x y) h.cur ?_
    intro x y e
    rw [hc] at e
    cases e
    exact ha
  · intro v hv
    have := h.fin v hv
    exact ⟨this.1, this.2.1, by show setAt p.cur u c v = _; rw [setAt_ne _ _ (by omega)]; exact this.2.2⟩

/-- A task leaves `addDependency`. -/
theorem TaskInv.leave (h : TaskInv D N K p) {u : Nat} (hi : p.th u = .idle) :
    TaskInv D N K { p with cur := setAt p.cur u .free } := by
  have hf : frameOf ({ p with cur := setAt p.cur u .free } : TaskSt) = frameOf p := rfl
  refine ⟨h.own, h.shp, ?_, hf ▸ h.frame, ?_, hf ▸ h.jobs, hf ▸ h.ops, h.noreg, hf ▸ h.vars, h.ports, ?_⟩
  · intro v r
    show reqOf (p.th v) = some r → addingAt (setAt p.cur u .free v) = some (r.src, r.tgt)
    by_cases hv : v = u
    · subst hv; rw [hi]; intro e; cases e
    · rw [setAt_ne _ _ hv]; exact h.req v r
  · rw [hf]
    exact setAt_all (P := fun v c => ∀ x y, addingAt c = some (x, y) → (frameOf p).Allowed N v x y) h.cur
      (fun x y e => by cases e)
  · intro v hv
    have := h.fin v hv
    refine ⟨this.1, this.2.1, ?_⟩
    show setAt p.cur u .free v = _
    unfold setAt
    split
    · rfl
    · exact this.2.2

theorem TaskInv.label (h : TaskInv D N K p) (e : Edge) (a : EdgeAttr) : TaskInv D N K (p.label e a) :=
  ⟨h.own, h.shp, h.req, h.frame, h.cur, h.jobs, h.ops, h.noreg, h.vars, h.ports, h.fin⟩

theorem TaskInv.back (h : TaskInv D N K p) {u : Nat} (hu : u < K) (hi : p.th u = .idle) :
    TaskInv D N K (p.back u) := by
  unfold TaskSt.back
  split
  · rename_i d e h1 h2
    dsimp only
    split
    · exact (h.label _ _).leave hi
    · exact h.call hu hi rfl (h.cur u d.src d.tgt (by rw [h1]; rfl))
  · exact (h.label _ _).leave hi
  · exact h.leave hi

/-- A job is taken from the list. -/
theorem TaskInv.pop (h : TaskInv D N K p) {u : Nat} {j : TaskJob} {js : List TaskJob} (hj : p.jobs u = j :: js) :
    TaskInv D N K { p with jobs := setAt p.jobs u js } := by
  refine ⟨h.own, h.shp, h.req, h.frame, h.cur, ?_, h.ops, h.noreg, h.vars, h.ports, ?_⟩
  · refine setAt_all (P := fun v l => ∀ j ∈ l, JobOk D N (frameOf p) v j) h.jobs ?_
    intro i hi
    exact h.jobs u i (by rw [hj]; exact List.mem_cons_of_mem _ hi)
  · intro v hv
    have := h.fin v hv
    have hne : v ≠ u := by rintro rfl; rw [hj] at this; cases this.2.1
    exact ⟨this.1, by show setAt p.jobs u js v = _; rw [setAt_ne _ _ hne]; exact this.2.1, this.2.2⟩

theorem entryInsert_mem {lo hi : Int} {n : Nat} {l : List (Ivl Nat)} {e : Ivl Nat} (h : e ∈ imInsert lo hi n l) :
    e.val = n ∨ e ∈ l := by
  induction l with
  | nil =>
    simp only [imInsert, List.mem_singleton] at h
    exact .inl (by rw [h])
  | cons a l ih =>
    simp only [imInsert] at h
    split at h
    · rcases List.mem_cons.1 h with h | h
      · exact .inl (by rw [h])
      · exact .inr h
    · rcases List.mem_cons.1 h with h | h
      · exact .inr (by rw [h]; exact List.mem_cons_self)
      · rcases ih h with h | h
        · exact .inl h
        · exact .inr (List.mem_cons_of_mem _ h)

theorem TaskInv.begin (h : TaskInv D N K p) {u : Nat} (hu : u < K) (hc : p.cur u = .free) {j : TaskJob}
    (hj : JobOk D N (frameOf p) u j) : TaskInv D N K (p.begin u j) := by
  have hi := h.idle hc
  cases j with
  | plain x y => exact h.call hu hi rfl hj
  | dep d => exact h.call hu hi rfl hj
  | into x sym c ref b own =>
    simp only [TaskSt.begin]
    split
    · exact h
    · rename_i vn hv
      obtain ⟨e, he, rfl⟩ := entryLookup_mem hv
      exact h.call hu hi rfl (.inl ⟨hj, .inr (h.vars sym e he)⟩)
  | outOf sym c y ref b =>
    simp only [TaskSt.begin]
    split
    · exact h
    · rename_i vn hv
      obtain ⟨e, he, rfl⟩ := entryLookup_mem hv
      exact h.call hu hi rfl (.inr (.inl ⟨h.vars sym e he, hj⟩))

/-! ### Steps inside `addEdge` -/

theorem step_req {s s' : LSt} {u : Nat} (hs : s.step u = some s') (ht : s.todo u = []) :
    s'.th u = .idle ∨ reqOf (s'.th u) = reqOf (s.th u) := by
  unfold LSt.step at hs
  cases hp : s.th u with
  | idle => rw [hp] at hs; simp [LSt.stepAt, ht] at hs
  | lockSrc r =>
    rw [hp] at hs
    simp only [LSt.stepAt] at hs
    split at hs
    · cases hs
    · cases hs
      right
      cases hd : r.dedup <;> simp [LSt.goto, reqOf, hd]
  | look r =>
    rw [hp] at hs
    simp only [LSt.stepAt] at hs
    split at hs <;> · cases hs; right; simp [LSt.goto, reqOf]
  | pushOut r =>
    rw [hp] at hs
    simp only [LSt.stepAt, Option.some.injEq] at hs
    subst hs
    right
    simp only [LSt.goto, ↓reduceIte]
    split
    · rfl
    · split <;> rfl
  | unlockEarly r e =>
    rw [hp] at hs
    simp only [LSt.stepAt, Option.some.injEq] at hs
    subst hs
    right; simp [LSt.goto, reqOf]
  | lockTgt r e =>
    rw [hp] at hs
    simp only [LSt.stepAt] at hs
    split at hs
    · cases hs
    · cases hs; right; simp [LSt.goto, reqOf]
  | pushIn r e =>
    rw [hp] at hs
    simp only [LSt.stepAt, Option.some.injEq] at hs
    subst hs
    right
    simp only [LSt.goto, ↓reduceIte]
    split <;> rfl
  | unlockTgt r e =>
    rw [hp] at hs
    simp only [LSt.stepAt, Option.some.injEq] at hs
    subst hs
    cases hd : r.dedup
    · left; simp [LSt.ret, LSt.goto]
    · right; simp [LSt.goto, reqOf]
  | unlockSrc r e =>
    rw [hp] at hs
    simp only [LSt.stepAt, Option.some.injEq] at hs
    subst hs
    left; simp [LSt.ret, LSt.goto]

theorem step_next {s s' : LSt} {u : Nat} (hs : s.step u = some s') : s'.g.nextNode = s.g.nextNode := by
  unfold LSt.step at hs
  cases hp : s.th u with
  | idle =>
    rw [hp] at hs
    simp only [LSt.stepAt] at hs
    split at hs <;> cases hs
    rfl
  | lockSrc r =>
    rw [hp] at hs
    simp only [LSt.stepAt] at hs
    split at hs <;> cases hs
    rfl
  | look r =>
    rw [hp] at hs
    simp only [LSt.stepAt] at hs
    split at hs <;> cases hs <;> rfl
  | lockTgt r e =>
    rw [hp] at hs
    simp only [LSt.stepAt] at hs
    split at hs <;> cases hs
    rfl
  | unlockTgt r e =>
    rw [hp] at hs
    simp only [LSt.stepAt, Option.some.injEq] at hs
    subst hs
    split <;> rfl
  | _ =>
    rw [hp] at hs
    simp only [LSt.stepAt, Option.some.injEq] at hs
    subst hs
    rfl

theorem TaskInv.locks (h : TaskInv D N K p) :
    OwnInv (List.replicate K ((List.range K).filterMap fun u => reqOf (p.th u))) p.locks := by
  have hlt : ∀ u r, reqOf (p.th u) = some r → u < K := by
    intro u r hr
    apply Classical.byContradiction
    intro hc
    have := h.idle (h.fin u (by omega)).2.2
    rw [this] at hr
    cases hr
  refine ⟨h.own, h.shp, ?_, (fun u r hr => by cases hr), ?_⟩
  · intro u r hr
    have hu := hlt u r hr
    exact ⟨_, List.mem_replicate.2 ⟨by omega, rfl⟩, List.mem_filterMap.2 ⟨u, List.mem_range.2 hu, hr⟩⟩
  · intro u hu
    rw [List.length_replicate] at hu
    exact ⟨h.idle (h.fin u hu).2.2, rfl⟩

theorem TaskInv.lockStep (h : TaskInv D N K p) {u : Nat} (hs : p.lockStep u = some p') : TaskInv D N K p' := by
  unfold TaskSt.lockStep at hs
  split at hs
  · cases hs
  · rename_i l hl
    cases hs
    have ho := ownInv_step h.locks hl
    have hlocal := (step_local hl).1
    have hr := step_req hl rfl
    have hn : l.g.nextNode = p.b.net.g.nextNode := step_next hl
    generalize hp' : ({ p with
      b := { p.b with net := { p.b.net with
        g := l.g
        attr := if l.g.nextEdge = p.b.net.g.nextEdge then p.b.net.attr
          else setAt p.b.net.attr p.b.net.g.nextEdge {} } }
      owner := l.owner
      th := l.th
      got := setAt p.got u (lastEdge (l.log u)) } : TaskSt) = p'
    have hf : frameOf p' = frameOf p := by
      subst hp'
      simp only [frameOf, hn]
      rfl
    have hth : p'.th = l.th := by rw [← hp']
    have hc : p'.cur = p.cur := by rw [← hp']
    have hj : p'.jobs = p.jobs := by rw [← hp']
    have hop : p'.ops = p.ops := by rw [← hp']
    have hv : p'.b.vars = p.b.vars := by rw [← hp']
    have how : p'.owner = l.owner := by rw [← hp']
    refine ⟨?_, ?_, ?_, hf ▸ h.frame, by rw [hf, hc]; exact h.cur, by rw [hf, hj]; exact h.jobs,
      by rw [hf, hop]; exact h.ops, by rw [hop]; exact h.noreg, by rw [hf, hv]; exact h.vars,
      by rw [hv]; exact h.ports, by rw [hc, hj, hop]; exact h.fin⟩
    · rw [how, hth]; exact ho.own
    · rw [hth]; exact ho.shp
    · intro v r
      rw [hth, hc]
      by_cases hv : v = u
      · subst hv
        intro e
        rcases hr with hr | hr
        · rw [hr] at e; cases e
        · rw [hr] at e; exact h.req v r e
      · rw [(hlocal v hv).1]
        exact h.req v r

/-! ### The first step of an operation -/

theorem pos_priv {u i n : Nat} (hn : (F.envs u)[i]? = some n) (hk : (F.kinds u)[i]? ≠ some true) : F.Priv u n := by
  refine ⟨List.mem_of_getElem? hn, fun hs => hk ?_⟩
  unfold TaskFrame.kinds
  rw [List.getElem?_map, hn]
  simp [hs]

theorem pos_seen (hF : FrameOk N F) {u n : Nat} (hn : n ∈ F.envs u) : F.Priv u n ∨ F.Vis N n := by
  by_cases hs : F.kind n = .state
  · exact .inr (.inr ⟨(hF.envs u n hn).2, hs⟩)
  · exact .inl ⟨hn, hs⟩

theorem driversOf_mem {env : List Nat} {l : List DriverInfo} : ∀ {l' : List DriverInfo}, driversOf env l = some l' →
    ∀ d ∈ l', ∀ n, d.node = some n → ∃ d0 ∈ l, d0.lsp = d.lsp ∧ ∃ i, d0.node = some i ∧ env[i]? = some n := by
  induction l with
  | nil => intro l' h; cases h; intro d hd; cases hd
  | cons a l ih =>
    intro l' h d hd n hn
    simp only [driversOf] at h
    split at h
    · rename_i m ds h1 h2
      cases h
      rcases List.mem_cons.1 hd with rfl | hd
      · subst hn
        refine ⟨a, List.mem_cons_self, rfl, ?_⟩
        cases ha : a.node with
        | none => rw [ha] at h1; cases h1
        | some i =>
          rw [ha] at h1
          simp only [ownNode] at h1
          refine ⟨i, rfl, ?_⟩
          cases he : env[i]? with
          | none => rw [he] at h1; cases h1
          | some x => rw [he] at h1; cases h1; rfl
      · obtain ⟨d0, h3, h4⟩ := ih h2 d hd n hn
        exact ⟨d0, List.mem_cons_of_mem _ h3, h4⟩
    · cases h

theorem portNode_mem {s : Bld} {z n : Nat} {b : BitRange} (h : portNodeFor s z b = some n) :
    ∃ e ∈ s.vars z, e.val = n := by
  unfold portNodeFor at h
  split at h
  · rename_i m hm
    cases h
    exact entryLookup_mem hm
  · have := List.mem_of_find?_eq_some h
    obtain ⟨e, he, h⟩ := List.mem_map.1 this
    exact ⟨e, he, h⟩

theorem setAt_self {α : Type} (f : Nat → α) (u : Nat) : setAt f u (f u) = f := by
  funext v
  unfold setAt
  split
  · subst_vars; rfl
  · rfl

/-- What the first step of an operation does to the nodes, and the jobs it leaves. -/
structure StartOk (D : Design) (N : Nat) (envs : Nat → List Nat) (u : Nat) (s : Bld) (a : BAct) (s' : Bld)
    (env' : List Nat) (js : List TaskJob) : Prop where
  vars : ∀ sym, ∀ e ∈ s'.vars sym, e ∈ s.vars sym ∨
    (e.val ∈ envs u ∧ s.net.kind e.val = .state ∧ ∀ y, D.port y ≠ some sym)
  le : FrameLe ⟨envs, s.net.kind, s.net.g.nextNode⟩ ⟨setAt envs u env', s'.net.kind, s'.net.g.nextNode⟩
  ok : FrameOk N ⟨setAt envs u env', s'.net.kind, s'.net.g.nextNode⟩
  kinds : TaskFrame.kinds ⟨setAt envs u env', s'.net.kind, s'.net.g.nextNode⟩ u =
    kindsAfter (TaskFrame.kinds ⟨envs, s.net.kind, s.net.g.nextNode⟩ u) a
  jobs : ∀ j ∈ js, JobOk D N ⟨setAt envs u env', s'.net.kind, s'.net.g.nextNode⟩ u j

theorem start_same {envs : Nat → List Nat} {u : Nat} {s s' : Bld} {a : BAct} {js : List TaskJob}
    (hF : FrameOk N ⟨envs, s.net.kind, s.net.g.nextNode⟩) (hn : s'.net = s.net) (hv : s'.vars = s.vars)
    (hk : ∀ ks, kindsAfter ks a = ks) (hj : ∀ j ∈ js, JobOk D N ⟨envs, s.net.kind, s.net.g.nextNode⟩ u j) :
    StartOk D N envs u s a s' (envs u) js := by
  have e : (⟨setAt envs u (envs u), s'.net.kind, s'.net.g.nextNode⟩ : TaskFrame) =
      ⟨envs, s.net.kind, s.net.g.nextNode⟩ := by rw [hn, setAt_self]
  exact ⟨fun sym x hx => .inl (by rw [← hv]; exact hx), by rw [e]; exact .refl _, by rw [e]; exact hF, by rw [e, hk], by rw [e]; exact hj⟩

theorem start_new {envs : Nat → List Nat} {u : Nat} {s : Bld} {net' : NetGraph} {a : BAct} {d : NodeData}
    {js : List TaskJob} (hF : FrameOk N ⟨envs, s.net.kind, s.net.g.nextNode⟩)
    (hn : s.net.call (.addNode d) = some net') (hk : ∀ ks, kindsAfter ks a = ks ++ [decide (d.kind = .state)])
    (hj : ∀ j ∈ js, FrameOk N ⟨setAt envs u (envs u ++ [s.net.g.nextNode]), net'.kind, net'.g.nextNode⟩ →
      net'.kind s.net.g.nextNode = d.kind →
      JobOk D N ⟨setAt envs u (envs u ++ [s.net.g.nextNode]), net'.kind, net'.g.nextNode⟩ u j) :
    StartOk D N envs u s a { s with net := net' } (envs u ++ [s.net.g.nextNode]) js := by
  have h1 : net'.g.nextNode = s.net.g.nextNode + 1 := by cases hn; rfl
  have h2 : ∀ n, n < s.net.g.nextNode → net'.kind n = s.net.kind n := by
    intro n h
    cases hn
    have : n ≠ s.net.g.nextNode := by omega
    simp [NetGraph.kind, this]
  have h3 : net'.kind s.net.g.nextNode = d.kind := by cases hn; simp [NetGraph.kind]
  have hmem : ∀ v n, n ∈ setAt envs u (envs u ++ [s.net.g.nextNode]) v →
      n ∈ envs v ∨ (v = u ∧ n = s.net.g.nextNode) := by
    intro v n h
    unfold setAt at h
    split at h
    · subst_vars
      rcases List.mem_append.1 h with h | h
      · exact .inl h
      · exact .inr ⟨rfl, by simpa using h⟩
    · exact .inl h
  have hok : FrameOk N ⟨setAt envs u (envs u ++ [s.net.g.nextNode]), net'.kind, net'.g.nextNode⟩ := by
    have hnx : N ≤ s.net.g.nextNode := hF.next
    refine ⟨?_, ?_, ?_⟩
    · show N ≤ net'.g.nextNode
      omega
    · intro v n h
      show N ≤ n ∧ n < net'.g.nextNode
      rcases hmem v n h with h | ⟨_, rfl⟩
      · have := hF.envs v n h
        simp only at this
        omega
      · omega
    · intro v w n h h'
      rcases hmem v n h with h | ⟨hv, h⟩
      · rcases hmem w n h' with h' | ⟨hw, h'⟩
        · exact hF.apart v w n h h'
        · have := (hF.envs v n h).2
          simp only at this
          omega
      · rcases hmem w n h' with h' | ⟨hw, h'⟩
        · have := (hF.envs w n h').2
          simp only at this
          omega
        · rw [hv, hw]
  refine ⟨fun _ _ hx => .inl hx, ⟨?_, h2, by show s.net.g.nextNode ≤ net'.g.nextNode; omega⟩, hok, ?_, fun j h => hj j h hok h3⟩
  · intro v n h
    show n ∈ setAt envs u (envs u ++ [s.net.g.nextNode]) v
    unfold setAt
    split
    · subst_vars; exact List.mem_append_left _ h
    · exact h
  · rw [hk]
    simp only [TaskFrame.kinds, setAt_same, List.map_append, List.map_cons, List.map_nil, h3]
    congr 1
    exact List.map_congr_left fun n hn => congrArg (fun k : NodeKind => decide (k = .state)) (h2 n (hF.envs u n hn).2)

theorem taskStart_ok {envs : Nat → List Nat} {u : Nat} {s s' : Bld} {a : BAct} {env' : List Nat} {js : List TaskJob}
    (hF : FrameOk N ⟨envs, s.net.kind, s.net.g.nextNode⟩)
    (ht : TameAct (TaskFrame.kinds ⟨envs, s.net.kind, s.net.g.nextNode⟩ u) a)
    (hr : ∀ sym b i, a = .reg sym b i → ∀ y, D.port y ≠ some sym)
    (hp : ∀ y z, D.port y = some z → ∀ e ∈ s.vars z, e.val < N)
    (h : s.start D (envs u) a = .ok (s', env', js)) : StartOk D N envs u s a s' env' js := by
  cases a with
  | node d =>
    simp only [Bld.start, Bld.act] at h
    cases hc : s.net.call (.addNode d) with
    | none => rw [hc] at h; cases h
    | some net' =>
      rw [hc] at h
      cases h
      exact start_new hF hc (fun ks => rfl) (fun j hj => by cases hj)
  | edge i j =>
    simp only [Bld.start] at h
    split at h
    · rename_i x y hx hy
      cases h
      refine start_same hF rfl rfl (fun _ => rfl) ?_
      intro j hj
      rw [List.mem_singleton.1 hj]
      exact .inl ⟨pos_priv (F := ⟨envs, s.net.kind, s.net.g.nextNode⟩) hx ht.1,
        .inl (pos_priv (F := ⟨envs, s.net.kind, s.net.g.nextNode⟩) hy ht.2)⟩
    · cases h
  | dep d =>
    simp only [Bld.start] at h
    split at h
    · rename_i x y hx hy
      cases h
      refine start_same hF rfl rfl (fun _ => rfl) ?_
      intro j hj
      rw [List.mem_singleton.1 hj]
      exact .inl ⟨pos_priv (F := ⟨envs, s.net.kind, s.net.g.nextNode⟩) hx ht,
        pos_seen hF (List.mem_of_getElem? hy)⟩
    · cases h
  | read sym b i k =>
    simp only [Bld.start, Bld.act] at h
    cases hc : ownNode (envs u) i with
    | none => rw [hc] at h; cases h
    | some n =>
      rw [hc] at h
      cases h
      exact start_same hF rfl rfl (fun _ => rfl) (fun j hj => by cases hj)
  | mread r b i =>
    simp only [Bld.start] at h
    split at h
    · cases h
    · rename_i n hn
      cases h
      refine start_same hF rfl rfl (fun _ => rfl) ?_
      intro j hj
      obtain ⟨v, _, rfl⟩ := List.mem_map.1 hj
      exact pos_priv (F := ⟨envs, s.net.kind, s.net.g.nextNode⟩) hn ht
  | drive sym b l =>
    simp only [Bld.start, Bld.act] at h
    cases hd : driversOf (envs u) l with
    | none => rw [hd] at h; cases h
    | some l' =>
      rw [hd] at h
      dsimp only at h
      cases ha : s.trk.addDrivers s.drv sym ⟨b, l', true⟩ with
      | error f => rw [ha] at h; cases h
      | ok q =>
        rw [ha] at h
        cases h
        exact start_same hF rfl rfl (fun _ => rfl) (fun j hj => by cases hj)
  | hook sym b l =>
    simp only [Bld.start] at h
    split at h
    · cases h
    · rename_i l' hl
      cases h
      refine start_same hF rfl rfl (fun _ => rfl) ?_
      intro j hj
      obtain ⟨d, hd, rfl⟩ := List.mem_map.1 hj
      unfold hookupDeps at hd
      split at hd
      · cases hd
      · rename_i z hz
        split at hd
        · cases hd
        · rename_i pn hpn
          obtain ⟨e, he, rfl⟩ := portNode_mem hpn
          have hlt := hp sym z hz e he
          unfold driverDeps at hd
          obtain ⟨di, hdi, hd⟩ := List.mem_filterMap.1 hd
          cases hn : di.node with
          | none => rw [hn] at hd; cases hd
          | some n =>
            rw [hn] at hd
            cases hd
            obtain ⟨_, _, _, i, _, hi⟩ := driversOf_mem hl di hdi n hn
            have hm := List.mem_of_getElem? hi
            by_cases hs : s.net.kind n = .state
            · exact .inr (.inr ⟨hm, hs, hlt⟩)
            · exact .inl ⟨⟨hm, hs⟩, .inr (.inl hlt)⟩
  | extra sym b l =>
    simp only [Bld.start] at h
    split at h
    · cases h
    · rename_i l' hl
      cases h
      refine start_same hF rfl rfl (fun _ => rfl) ?_
      intro j hj
      obtain ⟨d, hd, hj⟩ := List.mem_flatMap.1 hj
      cases hn : d.node with
      | none => rw [hn] at hj; cases hj
      | some n =>
        rw [hn] at hj
        obtain ⟨d0, h1, _, i, h2, hi⟩ := driversOf_mem hl d hd n hn
        have hpr : TaskFrame.Priv ⟨envs, s.net.kind, s.net.g.nextNode⟩ u n :=
          pos_priv (F := ⟨envs, s.net.kind, s.net.g.nextNode⟩) hi (ht d0 h1 i h2)
        dsimp only at hj
        split at hj
        · obtain ⟨v, _, rfl⟩ := List.mem_map.1 hj
          exact hpr
        · rw [List.mem_singleton.1 hj]
          exact hpr
        · cases hj
  | reg sym b i =>
    simp only [Bld.start, Bld.act] at h
    cases hc : (envs u)[i]? with
    | none => rw [hc] at h; cases h
    | some n =>
      rw [hc] at h
      cases h
      have hst := start_same (D := D) (u := u) (a := .reg sym b i) (js := []) (s := s) (s' := s) hF rfl rfl (fun _ => rfl)
        (fun j hj => by cases hj)
      refine ⟨fun y e he => ?_, hst.le, hst.ok, hst.kinds, fun j hj => by cases hj⟩
      simp only [VarTab.insert] at he
      split at he
      · rename_i hy
        rcases entryInsert_mem he with he | he
        · refine .inr ⟨by rw [he]; exact List.mem_of_getElem? hc, ?_, by rw [hy]; exact hr sym b i rfl⟩
          rw [he]
          have ht : (TaskFrame.kinds ⟨envs, s.net.kind, s.net.g.nextNode⟩ u)[i]? = some true := ht
          simp only [TaskFrame.kinds, List.getElem?_map, hc, Option.map_some, Option.some.injEq,
            decide_eq_true_eq] at ht
          exact ht
        · exact .inl (by rw [hy]; exact he)
      · exact .inl he
  | fault f => cases h

theorem TaskInv.take (h : TaskInv D N K p) {u : Nat} (hu : u < K) {a : BAct} {as : List BAct} (hj : p.jobs u = [])
    (ho : p.ops u = a :: as) : TaskInv D N K (p.take D u a as) := by
  unfold TaskSt.take
  have ht := h.ops u
  rw [ho] at ht
  have hfin : ∀ v, K ≤ v → v ≠ u := by intro v hv; omega
  split
  · refine ⟨h.own, h.shp, h.req, h.frame, h.cur, h.jobs, ?_, ?_, h.vars, h.ports, ?_⟩
    · exact setAt_all (P := fun v l => Tame ((frameOf p).kinds v) l) h.ops trivial
    · exact setAt_all (P := fun _ l => ∀ sym b i, BAct.reg sym b i ∈ l → ∀ y, D.port y ≠ some sym) h.noreg
        (fun _ _ _ hm => by cases hm)
    · intro v hv
      have := h.fin v hv
      exact ⟨by show setAt p.ops u [] v = _; rw [setAt_ne _ _ (hfin v hv)]; exact this.1, this.2⟩
  · rename_i s' env' js hs
    have hst := taskStart_ok (N := N) (u := u) (s := { p.b with queue := p.bufs u }) (envs := p.envs) h.frame ht.1
      (fun sym b i e => h.noreg u sym b i (by rw [ho, e]; exact List.mem_cons_self)) h.ports hs
    have hf : frameOf ({ p with
      b := { s' with queue := p.b.queue }
      envs := setAt p.envs u env'
      bufs := setAt p.bufs u s'.queue
      ops := setAt p.ops u as
      jobs := setAt p.jobs u js } : TaskSt) = ⟨setAt p.envs u env', s'.net.kind, s'.net.g.nextNode⟩ := rfl
    have hle : FrameLe (frameOf p) ⟨setAt p.envs u env', s'.net.kind, s'.net.g.nextNode⟩ := hst.le
    refine ⟨h.own, h.shp, h.req, by rw [hf]; exact hst.ok, ?_, ?_, ?_, ?_, ?_, ?_, ?_⟩
    · rw [hf]
      exact fun v x y e => (h.cur v x y e).mono h.frame hle
    · rw [hf]
      exact setAt_all (P := fun v l => ∀ j ∈ l, JobOk D N _ v j) (fun v j hj => (h.jobs v j hj).mono h.frame hle)
        hst.jobs
    · rw [hf]
      intro v
      show Tame _ (setAt p.ops u as v)
      by_cases hv : v = u
      · subst hv
        rw [setAt_same, hst.kinds]
        exact ht.2
      · rw [setAt_ne _ _ hv]
        have : TaskFrame.kinds ⟨setAt p.envs u env', s'.net.kind, s'.net.g.nextNode⟩ v = (frameOf p).kinds v := by
          simp only [TaskFrame.kinds, setAt_ne _ _ hv]
          exact List.map_congr_left fun n hn =>
            congrArg (fun k : NodeKind => decide (k = .state)) (hle.kind n (h.frame.envs v n hn).2)
        rw [this]
        exact h.ops v
    · refine setAt_all (P := fun _ l => ∀ sym b i, BAct.reg sym b i ∈ l → ∀ y, D.port y ≠ some sym) h.noreg ?_
      intro sym b i hm
      exact h.noreg u sym b i (by rw [ho]; exact List.mem_cons_of_mem _ hm)
    · rw [hf]
      intro sym e he
      have he : e ∈ s'.vars sym := he
      rcases hst.vars sym e he with he | ⟨h1, h2, _⟩
      · exact (h.vars sym e he).mono hle
      · exact TaskFrame.Vis.mono hle (.inr ⟨(h.frame.envs u _ h1).2, h2⟩)
    · intro y z hz e he
      have he : e ∈ s'.vars z := he
      rcases hst.vars z e he with he | ⟨_, _, h3⟩
      · exact h.ports y z hz e he
      · exact (h3 y hz).elim
    · intro v hv
      have := h.fin v hv
      refine ⟨?_, ?_, this.2.2⟩
      · show setAt p.ops u as v = _
        rw [setAt_ne _ _ (hfin v hv)]; exact this.1
      · show setAt p.jobs u js v = _
        rw [setAt_ne _ _ (hfin v hv)]; exact this.2.1

/-! ### Runs -/

theorem taskInv_step (h : TaskInv D N K p) {u : Nat} (hs : p.step D u = some p') : TaskInv D N K p' := by
  have hu := h.fin_lt (u := u) (by rw [hs]; rfl)
  unfold TaskSt.step at hs
  split at hs
  · rename_i hc
    split at hs
    · rename_i j js hj
      cases hs
      exact (h.pop hj).begin hu hc (h.jobs u j (by rw [hj]; exact List.mem_cons_self))
    · rename_i hj
      split at hs
      · cases hs
      · rename_i a as ho
        cases hs
        exact h.take hu hj ho
  · split at hs
    · rename_i hi
      cases hs
      exact h.back hu hi
    · exact h.lockStep hs

theorem taskInv_run (l : List Nat) : ∀ {p p' : TaskSt}, TaskInv D N K p → p.run D l = some p' → TaskInv D N K p' := by
  induction l with
  | nil => intro p p' h hs; cases hs; exact h
  | cons u l ih =>
    intro p p' h hs
    simp only [TaskSt.run] at hs
    split at hs
    · cases hs
    · rename_i p1 h1
      exact ih (taskInv_step h h1) hs

/-! ### Progress -/

/-- How far a node is from Phase 1. -/
def nodeRank (N : Nat) (F : TaskFrame) (n : Nat) : Nat :=
  if n < N then 2 else if F.kind n = .state then 1 else 0

theorem vis_rank {n : Nat} (h : F.Vis N n) : 1 ≤ nodeRank N F n := by
  unfold nodeRank
  rcases h with h | ⟨_, h⟩
  · rw [if_pos h]; omega
  · split
    · omega
    · omega

theorem priv_rank (hF : FrameOk N F) {u n : Nat} (h : F.Priv u n) : nodeRank N F n = 0 := by
  unfold nodeRank
  have := (hF.envs u n h.1).1
  rw [if_neg (by omega), if_neg h.2]

/-- A thread that waits for the target holds the source, and the source of a call waiting for it lies nearer to
Phase 1. -/
theorem allowed_rank (hF : FrameOk N F) {u v x y z : Nat} (h : F.Allowed N u x y) (h' : F.Allowed N v y z) (hne : v ≠ u) :
    nodeRank N F x < nodeRank N F y := by
  have hy : ¬ F.Priv u y := by
    intro hp
    rcases h' with ⟨g1, _⟩ | ⟨g1, _⟩ | ⟨g1, _⟩
    · exact hne (hF.apart v u y g1.1 hp.1)
    · exact priv_not_vis hF hp g1
    · exact hne (hF.apart v u y g1 hp.1)
  rcases h with ⟨h1, h2 | h2⟩ | ⟨_, h2⟩ | ⟨h1, h2, h3⟩
  · exact (hy h2).elim
  · have := vis_rank h2
    have := priv_rank hF h1
    omega
  · exact (hy h2).elim
  · have := (hF.envs u x h1).1
    unfold nodeRank
    rw [if_neg (by omega), if_pos h2, if_pos h3]
    omega

theorem tasks_no_stuck (h : TaskInv D N K p) (hd : ¬ TasksDone p) : ∃ u, (p.step D u).isSome := by
  apply Classical.byContradiction
  intro hc
  have hst : ∀ u, p.step D u = none := by
    intro u
    cases hu : p.step D u with
    | none => rfl
    | some x => exact absurd ⟨u, by simp [hu]⟩ hc
  have hlock : ∀ u, p.cur u ≠ .free → p.locks.step u = none ∧ p.th u ≠ .idle := by
    intro u hu
    have := hst u
    unfold TaskSt.step at this
    split at this
    · rename_i hf; exact (hu hf).elim
    · split at this
      · cases this
      · rename_i hi
        unfold TaskSt.lockStep at this
        split at this
        · rename_i hl; exact ⟨hl, hi⟩
        · cases this
  have hall : ∀ u, p.locks.step u = none := by
    intro u
    by_cases hu : p.cur u = .free
    · have hth : p.locks.th u = .idle := h.idle hu
      unfold LSt.step
      rw [hth]
      rfl
    · exact (hlock u hu).1
  have key : ∀ k n v, p.owner n = some v → 2 ≤ nodeRank N (frameOf p) n + k → False := by
    intro k
    induction k with
    | zero =>
      intro n v ho hk
      obtain ⟨r, e, w, h1, h2, rfl, h4⟩ := stuck_holder h.locks hall ho
      obtain ⟨r', e', w', g1, g2, g3, g4⟩ := stuck_holder h.locks hall h4
      have a1 := h.cur v _ _ (h.req v r (by have h1 : p.th v = _ := h1; rw [h1]; rfl))
      have a2 := h.cur w _ _ (h.req w r' (by have g1 : p.th w = _ := g1; rw [g1]; rfl))
      have hne : w ≠ v := by
        rintro rfl
        rw [h1] at g1
        cases g1
        have := h.shp w
        have h1 : p.th w = _ := h1
        rw [h1] at this
        exact this g3
      rw [g3] at a2
      have := allowed_rank h.frame a1 a2 hne
      have : nodeRank N (frameOf p) r.tgt ≤ 2 := by unfold nodeRank; split <;> (try split) <;> omega
      omega
    | succ k ih =>
      intro n v ho hk
      obtain ⟨r, e, w, h1, h2, rfl, h4⟩ := stuck_holder h.locks hall ho
      obtain ⟨r', e', w', g1, g2, g3, g4⟩ := stuck_holder h.locks hall h4
      have a1 := h.cur v _ _ (h.req v r (by have h1 : p.th v = _ := h1; rw [h1]; rfl))
      have a2 := h.cur w _ _ (h.req w r' (by have g1 : p.th w = _ := g1; rw [g1]; rfl))
      have hne : w ≠ v := by
        rintro rfl
        rw [h1] at g1
        cases g1
        have := h.shp w
        have h1 : p.th w = _ := h1
        rw [h1] at this
        exact this g3
      rw [g3] at a2
      have := allowed_rank h.frame a1 a2 hne
      exact ih r.tgt w h4 (by omega)
  apply hd
  intro u
  by_cases hu : p.cur u = .free
  · have := hst u
    unfold TaskSt.step at this
    rw [hu] at this
    dsimp only at this
    cases hj : p.jobs u with
    | cons j js => rw [hj] at this; cases this
    | nil =>
      rw [hj] at this
      dsimp only at this
      cases ho : p.ops u with
      | nil => exact ⟨hu, rfl, rfl⟩
      | cons a as => rw [ho] at this; cases this
  · exfalso
    obtain ⟨h1, h2⟩ := hlock u hu
    rcases stuck_cases h1 with ⟨h3, _⟩ | ⟨r, v, _, h3⟩ | ⟨r, e, v, _, h3⟩
    · exact h2 h3
    · exact key 2 _ v h3 (by omega)
    · exact key 2 _ v h3 (by omega)

end Verif.Proofs

import Verif.Proofs.ScheduleEnd

/-! Pending reads in the buffers of tasks. -/
namespace Verif.Proofs
open Verif.Model Verif.Spec Verif.Props

def addThen (s : Bld) (env : List Nat) (ds : List Dep) : Except Fault (Bld × List Nat) :=
  match s.addDeps ds with
  | .error f => .error f
  | .ok s' => .ok (s', env)

/-- An operation only adds to the queue, and does not look at it. -/
theorem act_queue {D : Design} {s : Bld} {env : List Nat} {a : BAct} :
    (∀ f, s.act D env a = .error f → ∀ q, ({ s with queue := q } : Bld).act D env a = .error f) ∧
    ∀ s' env', s.act D env a = .ok (s', env') → ∃ r, s'.queue = s.queue ++ r ∧
      (∀ q, ({ s with queue := q } : Bld).act D env a = .ok ({ s' with queue := q ++ r }, env')) ∧
      (∀ p ∈ r, ∀ t, p.node = some t → t ∈ env) ∧ ∀ x ∈ env, x ∈ env' := by
  have deps : ∀ (g : Bld → List Dep), (∀ q, g { s with queue := q } = g s) →
      (∀ f, addThen s env (g s) = .error f →
        ∀ q, addThen { s with queue := q } env (g { s with queue := q }) = .error f) ∧
      ∀ s' env', addThen s env (g s) = .ok (s', env') → ∃ r, s'.queue = s.queue ++ r ∧
        (∀ q, addThen { s with queue := q } env (g { s with queue := q }) =
          .ok ({ s' with queue := q ++ r }, env')) ∧
        (∀ p ∈ r, ∀ t, p.node = some t → t ∈ env) ∧ ∀ x ∈ env, x ∈ env' := by
    intro g hg
    simp only [hg, addThen, Bld.addDeps]
    cases s.net.addDependencies (g s) with
    | none => exact ⟨fun f h q => h, fun s' env' h => by cases h⟩
    | some n =>
      refine ⟨fun f h => (by cases h), fun s' env' h => ?_⟩
      simp only [Except.ok.injEq, Prod.mk.injEq] at h
      obtain ⟨rfl, rfl⟩ := h
      exact ⟨[], by simp, fun q => by simp, by simp, fun x hx => hx⟩
  have ext : ∀ (n : Nat), ∀ x ∈ env, x ∈ env ++ [n] := fun n x hx => List.mem_append_left _ hx
  cases a with
  | node d =>
    simp only [Bld.act]
    cases s.net.call (.addNode d) with
    | none => exact ⟨fun f h q => h, fun s' env' h => by cases h⟩
    | some n =>
      refine ⟨fun f h => (by cases h), fun s' env' h => ?_⟩
      simp only [Except.ok.injEq, Prod.mk.injEq] at h
      obtain ⟨rfl, rfl⟩ := h
      exact ⟨[], by simp, fun q => by simp, by simp, ext _⟩
  | edge i j =>
    simp only [Bld.act]
    cases env[i]? with
    | none => exact ⟨fun f h q => h, fun s' env' h => by cases h⟩
    | some x =>
      cases env[j]? with
      | none => exact ⟨fun f h q => h, fun s' env' h => by cases h⟩
      | some y =>
        dsimp only
        cases s.net.call (.addEdge x y) with
        | none => exact ⟨fun f h q => h, fun s' env' h => by cases h⟩
        | some n =>
          refine ⟨fun f h => (by cases h), fun s' env' h => ?_⟩
          simp only [Except.ok.injEq, Prod.mk.injEq] at h
          obtain ⟨rfl, rfl⟩ := h
          exact ⟨[], by simp, fun q => by simp, by simp, fun x hx => hx⟩
  | dep d =>
    simp only [Bld.act]
    cases env[d.src]? with
    | none => exact ⟨fun f h q => h, fun s' env' h => by cases h⟩
    | some x =>
      cases env[d.tgt]? with
      | none => exact ⟨fun f h q => h, fun s' env' h => by cases h⟩
      | some y =>
        dsimp only
        cases s.net.addDependency ⟨x, y, d.sym, d.bounds, d.kind⟩ with
        | none => exact ⟨fun f h q => h, fun s' env' h => by cases h⟩
        | some n =>
          refine ⟨fun f h => (by cases h), fun s' env' h => ?_⟩
          simp only [Except.ok.injEq, Prod.mk.injEq] at h
          obtain ⟨rfl, rfl⟩ := h
          exact ⟨[], by simp, fun q => by simp, by simp, fun x hx => hx⟩
  | read sym b i k =>
    simp only [Bld.act]
    cases hi : ownNode env i with
    | none => exact ⟨fun f h q => h, fun s' env' h => by cases h⟩
    | some o =>
      refine ⟨fun f h => (by cases h), fun s' env' h => ?_⟩
      simp only [Except.ok.injEq, Prod.mk.injEq] at h
      obtain ⟨rfl, rfl⟩ := h
      refine ⟨[⟨sym, b, o, k⟩], rfl, fun q => rfl, fun p hp t ht => ?_, fun x hx => hx⟩
      rw [List.mem_singleton.1 hp] at ht
      dsimp only at ht
      subst ht
      cases i with
      | none => simp [ownNode] at hi
      | some j =>
        simp only [ownNode, Option.map_eq_some_iff, Option.some.injEq, exists_eq_right] at hi
        exact List.mem_of_getElem? hi
  | mread r b i =>
    simp only [Bld.act]
    cases env[i]? with
    | none => exact ⟨fun f h q => h, fun s' env' h => by cases h⟩
    | some x => exact deps (fun B => modportDeps ⟨D, B.vars, none⟩ r b x) fun q => rfl
  | drive y b l =>
    simp only [Bld.act]
    cases driversOf env l with
    | none => exact ⟨fun f h q => h, fun s' env' h => by cases h⟩
    | some l' =>
      dsimp only
      cases s.trk.addDrivers s.drv y ⟨b, l', true⟩ with
      | error f => exact ⟨fun f h q => h, fun s' env' h => by cases h⟩
      | ok p =>
        refine ⟨fun f h => (by cases h), fun s' env' h => ?_⟩
        simp only [Except.ok.injEq, Prod.mk.injEq] at h
        obtain ⟨rfl, rfl⟩ := h
        exact ⟨[], by simp, fun q => by simp, by simp, fun x hx => hx⟩
  | hook sym b l =>
    simp only [Bld.act]
    cases driversOf env l with
    | none => exact ⟨fun f h q => h, fun s' env' h => by cases h⟩
    | some l' => exact deps (fun B => hookupDeps D B sym b l') fun q => rfl
  | extra sym b l =>
    simp only [Bld.act]
    cases driversOf env l with
    | none => exact ⟨fun f h q => h, fun s' env' h => by cases h⟩
    | some l' => exact deps (fun B => extraDeps D B sym b l') fun q => rfl
  | reg sym b i =>
    simp only [Bld.act]
    cases env[i]? with
    | none => exact ⟨fun f h q => h, fun s' env' h => by cases h⟩
    | some n =>
      refine ⟨fun f h => (by cases h), fun s' env' h => ?_⟩
      simp only [Except.ok.injEq, Prod.mk.injEq] at h
      obtain ⟨rfl, rfl⟩ := h
      exact ⟨[], by simp, fun q => by simp, by simp, fun x hx => hx⟩
  | fault f => exact ⟨fun f h q => h, fun s' env' h => by cases h⟩

/-- The reads of one task in a list of reads with the number of their task. -/
def ofTask (T : List (Nat × Pending)) (w : Nat) : List Pending := (T.filter fun x => x.1 == w).map (·.2)

theorem ofTask_append (T U : List (Nat × Pending)) (w : Nat) : ofTask (T ++ U) w = ofTask T w ++ ofTask U w := by
  simp [ofTask]

theorem ofTask_block (r : List Pending) (w v : Nat) : ofTask (r.map (w, ·)) v = if v = w then r else [] := by
  unfold ofTask
  induction r with
  | nil => simp
  | cons b r ih =>
    rw [List.map_cons, List.filter_cons]
    by_cases h : v = w
    · subst h; simp at ih ⊢; exact ih
    · have : (w == v) = false := by simpa using fun e => h e.symm
      simp only [this, if_neg h, Bool.false_eq_true, if_false] at ih ⊢
      exact ih

/-- Tasks with buffers do what tasks with one queue do. -/
theorem tasks_mixed {D : Design} : ∀ (l : List (Nat × BAct)) (s : Bld) (envs : Nat → List Nat)
    (bufs : Nat → List Pending) (T : List (Nat × Pending)) (Q : List Pending), (∀ w, bufs w = ofTask T w) →
    (∀ x ∈ T, ∀ t, x.2.node = some t → t ∈ envs x.1) →
    ExR (fun p r => r.1 = { p.1 with queue := s.queue } ∧ r.2.1 = p.2 ∧ ∃ T', p.1.queue = Q ++ T'.map (·.2) ∧
        (∀ w, r.2.2 w = ofTask T' w) ∧ ∀ x ∈ T', ∀ t, x.2.node = some t → t ∈ p.2 x.1)
      (({ s with queue := Q ++ T.map (·.2) } : Bld).mixed D envs l) (s.tasks D envs bufs l) := by
  intro l
  induction l with
  | nil =>
    intro s envs bufs T Q h1 h2
    exact ⟨rfl, rfl, T, rfl, h1, h2⟩
  | cons x l ih =>
    obtain ⟨w, a⟩ := x
    intro s envs bufs T Q h1 h2
    simp only [Bld.mixed, Bld.tasks]
    have key := act_queue (D := D) (s := ({ s with queue := Q ++ T.map (·.2) } : Bld)) (env := envs w) (a := a)
    cases hm : ({ s with queue := Q ++ T.map (·.2) } : Bld).act D (envs w) a with
    | error f =>
      have := key.1 f hm (bufs w)
      rw [this]
      exact rfl
    | ok p =>
      obtain ⟨s', env'⟩ := p
      obtain ⟨r, k1, k2, k3, k4⟩ := key.2 s' env' hm
      have := k2 (bufs w)
      rw [this]
      dsimp only at k1 ⊢
      have hT : Q ++ T.map (·.2) ++ r = Q ++ (T ++ r.map (w, ·)).map (·.2) := by
        simp [Function.comp_def]
      have := ih ({ s' with queue := s.queue } : Bld) (fun v => if v = w then env' else envs v)
        (fun v => if v = w then bufs w ++ r else bufs v) (T ++ r.map (w, ·)) Q ?_ ?_
      · rw [← hT, ← k1] at this
        exact this
      · intro v
        rw [ofTask_append, ofTask_block, ← h1 v]
        by_cases hv : v = w
        · subst hv; simp
        · simp [hv]
      · intro x hx t ht
        rcases List.mem_append.1 hx with hx | hx
        · have := h2 x hx t ht
          split
          · rename_i e; exact k4 t (e ▸ this)
          · exact this
        · obtain ⟨p, hp, rfl⟩ := List.mem_map.1 hx
          simp only [if_pos]
          exact k4 t (k3 p hp t ht)

theorem askedBy_join (a b : List Pending) (t : Nat) : askedBy (a ++ b) t = askedBy a t ++ askedBy b t := by
  simp [askedBy]

theorem askedBy_flat (f : Nat → List Pending) (t : Nat) (ws : List Nat) :
    askedBy (ws.flatMap f) t = ws.flatMap fun v => askedBy (f v) t := by
  induction ws with
  | nil => rfl
  | cons w ws ih => rw [List.flatMap_cons, List.flatMap_cons, askedBy_join, ih]

theorem flat_none {α : Type} {g : Nat → List α} {ws : List Nat} (h : ∀ v ∈ ws, g v = []) : ws.flatMap g = [] := by
  induction ws with
  | nil => rfl
  | cons w ws ih => rw [List.flatMap_cons, h w (by simp), ih fun v hv => h v (by simp [hv])]; rfl

theorem flat_one {α : Type} {g : Nat → List α} {ws : List Nat} (hn : ws.Nodup) {w : Nat} (hw : w ∈ ws)
    (h : ∀ v, v ≠ w → g v = []) : ws.flatMap g = g w := by
  induction ws with
  | nil => cases hw
  | cons v ws ih =>
    obtain ⟨h1, h2⟩ := List.nodup_cons.1 hn
    rw [List.flatMap_cons]
    by_cases hv : v = w
    · subst hv
      rw [flat_none fun u hu => h u fun e => h1 (e ▸ hu), List.append_nil]
    · rw [h v hv, ih h2 ((List.mem_cons.1 hw).resolve_left fun e => hv e.symm), List.nil_append]

theorem askedBy_task {T : List (Nat × Pending)} {w t : Nat} (h : ∀ x ∈ T, x.2.node = some t → x.1 = w) :
    askedBy (T.map (·.2)) t = askedBy (ofTask T w) t := by
  induction T with
  | nil => rfl
  | cons x T ih =>
    have ih := ih fun y hy => h y (by simp [hy])
    rw [List.map_cons, show x.2 :: T.map (·.2) = [x.2] ++ T.map (·.2) from rfl, askedBy_join, ih]
    rw [show x :: T = [x] ++ T from rfl, ofTask_append, askedBy_join]
    congr 1
    by_cases hx : x.1 = w
    · simp [ofTask, hx]
    · have : x.2.node ≠ some t := fun e => hx (h x (by simp) e)
      simp [ofTask, hx, askedBy, this]

/-- The queue after `drain` asks the same for every node. -/
theorem drain_mated {s s1 s2 : Bld} {as : Nat → List BAct} {e2 E : Nat → List Nat} {S : Nat → Bld}
    {M : Nat → Nat → Prop} (hm : Mated M s1 s2) (hi : MixInv s as as s2 e2 S E)
    (hq : ∀ p ∈ s.queue, ∀ t, p.node = some t → t ∈ s.net.g.nodes) {T : List (Nat × Pending)}
    {bufs : Nat → List Pending} (h1 : s2.queue = s.queue ++ T.map (·.2)) (h2 : ∀ w, bufs w = ofTask T w)
    (h3 : ∀ x ∈ T, ∀ t, x.2.node = some t → t ∈ e2 x.1) {k : Nat} (hk : ∀ w, k ≤ w → e2 w = []) :
    Mated M s1 (({ s2 with queue := s.queue } : Bld).drain k bufs) := by
  have hb : ∀ w, ∀ p ∈ bufs w, ∀ t, p.node = some t → t ∈ e2 w := by
    intro w p hp t ht
    rw [h2] at hp
    obtain ⟨x, hx, rfl⟩ := List.mem_map.1 hp
    obtain ⟨hx, e⟩ := List.mem_filter.1 hx
    rw [← eq_of_beq e]
    exact h3 x hx t ht
  have key : ∀ t ∈ s2.net.g.nodes, askedBy ((List.range k).flatMap bufs) t = askedBy (T.map (·.2)) t := by
    intro t ht
    rw [askedBy_flat]
    rcases hi.g.nodes t ht with h | ⟨w, h⟩
    · have hno : ∀ v, t ∉ e2 v := by
        intro v hv
        have := (hi.g.own v t hv).2
        have := (hi.g.base t h).2
        omega
      rw [flat_none fun v _ => askedBy_none fun p hp e => hno v (hb v p hp t e)]
      rw [askedBy_none]
      intro p hp e
      obtain ⟨x, hx, rfl⟩ := List.mem_map.1 hp
      exact hno _ (h3 x hx t e)
    · rw [askedBy_task (w := w) fun x hx e => hi.g.disj _ _ t (h3 x hx t e) h, ← h2]
      refine flat_one (g := fun v => askedBy (bufs v) t) List.nodup_range ?_ ?_
      · rw [List.mem_range]
        refine Classical.byContradiction fun hn => ?_
        rw [hk w (by omega)] at h
        cases h
      · intro v hv
        exact askedBy_none fun p hp e => hv (hi.g.disj v w t (hb v p hp t e) h)
  refine ⟨hm.reach, hm.reach', hm.into, hm.left, hm.right, hm.func, hm.inj, hm.data, hm.ann, ?_, hm.qin, ?_,
    hm.look, hm.ivs⟩
  · intro x y hxy
    rw [← hm.asked x y hxy, h1, Bld.drain]
    dsimp only
    rw [askedBy_join, askedBy_join, key y (hm.into x y hxy).2]
  · intro p hp t ht
    rcases List.mem_append.1 hp with hp | hp
    · exact (hi.g.base t (hq p hp t ht)).1
    · obtain ⟨v, _, hp⟩ := List.mem_flatMap.1 hp
      exact (hi.g.own v t (hb v p hp t ht)).1

end Verif.Proofs

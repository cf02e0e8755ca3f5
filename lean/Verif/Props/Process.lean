import Verif.Model.Process
import Verif.Spec.Process
import Verif.Props.Loops
import Verif.Props.Serial

/-! C103: netlists of one process and the IDs of their nodes. -/
namespace Verif.Props
open Verif.Model Verif.Spec Verif.Proofs

theorem steps_append (a b : List (Nat × NetOp)) : ∀ (s : Proc), s.steps (a ++ b) = (s.steps a).bind (·.steps b) := by
  induction a with
  | nil => intro s; rfl
  | cons c a ih =>
    intro s
    simp only [List.cons_append, Proc.steps]
    cases s.step c with
    | none => rfl
    | some s' => exact ih s'

/-- Only additions draw an ID, and only resets change the counter otherwise. -/
theorem call_counter {net : NetGraph} {op : NetOp} (h1 : ∀ d, op ≠ .addNode d) (h2 : op ≠ .resetIds) (k : Nat) :
    ({ net with nextID := k } : NetGraph).call op = (net.call op).map fun n => { n with nextID := k } := by
  cases op with
  | addNode d => exact absurd rfl (h1 d)
  | resetIds => exact absurd rfl h2
  | setAttr | addBlackBox => rfl
  | addEdge | addNewEdge | removeEdge | clearAllEdges | removeNode =>
    simp only [NetGraph.call, NetOp.gop]
    split <;> simp_all

/-- What holds of a netlist after a history: `N` bounds its IDs. -/
def IdsBelow (h : List (Nat × NetOp)) (s : Proc) (g : Nat) : Prop :=
  ∃ N, (∀ n ∈ (s.net g).g.nodes, (s.net g).id n < N ∧ n < (s.net g).g.nextNode) ∧ UniqueIds (s.net g) ∧
    (¬ Adds h g → N = 0) ∧ (N ≤ s.counter ∨ ∃ pre post k, h = pre ++ (k, .resetIds) :: post ∧ Adds pre g)

theorem adds_left {a b : List (Nat × NetOp)} {g : Nat} : Adds a g → Adds (a ++ b) g :=
  fun ⟨d, h⟩ => ⟨d, List.mem_append_left _ h⟩

theorem below_step {h : List (Nat × NetOp)} {s s' : Proc} {c : Nat × NetOp} {g : Nat} (hu : Undisturbed (h ++ [c]) g)
    (hb : IdsBelow h s g) (hs : s.step c = some s') : IdsBelow (h ++ [c]) s' g := by
  obtain ⟨N, b1, b2, b3, b4⟩ := hb
  obtain ⟨k, op⟩ := c
  have b4' : N ≤ s.counter ∨ ∃ pre post k', h ++ [(k, op)] = pre ++ (k', .resetIds) :: post ∧ Adds pre g := by
    rcases b4 with b4 | ⟨pre, post, k', rfl, ha⟩
    · exact .inl b4
    · exact .inr ⟨pre, post ++ [(k, op)], k', by simp, ha⟩
  have b3' : ¬ Adds (h ++ [(k, op)]) g → N = 0 := fun hn => b3 fun ha => hn (adds_left ha)
  simp only [Proc.step] at hs
  cases hc : ({ s.net k with nextID := s.counter } : NetGraph).call op with
  | none => rw [hc] at hs; cases hs
  | some n =>
    rw [hc] at hs
    simp only [Option.some.injEq] at hs
    subst hs
    by_cases hr : op = .resetIds
    · subst hr
      simp only [NetGraph.call, NetOp.gop, Option.some.injEq] at hc
      subst hc
      have e : ∀ P : NetGraph → Prop, (P { s.net g with nextID := 1 }) → P (s.net g) →
          P (if g = k then { s.net k with nextID := 1 } else s.net g) := by
        intro P p1 p2
        by_cases hk : g = k
        · subst hk; simpa using p1
        · simpa [hk] using p2
      refine ⟨N, e (fun m => ∀ n ∈ m.g.nodes, m.id n < N ∧ n < m.g.nextNode) b1 b1, e UniqueIds b2 b2, b3', ?_⟩
      by_cases ha : Adds h g
      · exact .inr ⟨h, [], k, rfl, ha⟩
      · exact .inl (by rw [b3 ha]; exact Nat.zero_le _)
    by_cases hd : ∃ d, op = .addNode d
    · obtain ⟨d, rfl⟩ := hd
      have hn : n.nextID = s.counter + 1 := by
        simp only [NetGraph.call, NetOp.gop, DGraph.call, Option.some.injEq] at hc
        rw [← hc]
      by_cases hk : g = k
      · subst hk
        have hle : N ≤ s.counter := by
          rcases b4 with b4 | ⟨pre, post, k', rfl, ha⟩
          · exact b4
          · exact absurd ⟨d, by simp⟩ (hu pre (post ++ [(g, .addNode d)]) k' (by simp) ha)
        obtain ⟨c1, c2⟩ := call_ids (net := { s.net g with nextID := s.counter }) (op := .addNode d) (by simp) hc
          (fun n hn => ⟨Nat.lt_of_lt_of_le (b1 n hn).1 hle, (b1 n hn).2⟩) b2
        refine ⟨n.nextID, ?_, ?_, fun h => absurd ⟨d, by simp⟩ h, .inl (Nat.le_refl _)⟩
        · simpa using c1
        · simpa using c2
      · refine ⟨N, ?_, ?_, b3', ?_⟩
        · simpa [hk] using b1
        · simpa [hk] using b2
        · rcases b4' with h' | h'
          · exact .inl (by rw [hn]; exact Nat.le_succ_of_le h')
          · exact .inr h'
    · have hd' : ∀ d, op ≠ .addNode d := fun d h => hd ⟨d, h⟩
      rw [call_counter hd' hr] at hc
      cases hc' : (s.net k).call op with
      | none => rw [hc'] at hc; cases hc
      | some m =>
        rw [hc'] at hc
        simp only [Option.map_some, Option.some.injEq] at hc
        subst hc
        refine ⟨N, ?_, ?_, b3', b4'⟩ <;> by_cases hk : g = k
        · subst hk
          obtain ⟨c1, c2⟩ := call_ids (net := { s.net g with nextID := N }) (net' := { m with nextID := N }) hr
            (by rw [call_counter hd' hr, hc']; rfl) b1 b2
          simpa using c1
        · simpa [hk] using b1
        · subst hk
          obtain ⟨c1, c2⟩ := call_ids (net := { s.net g with nextID := N }) (net' := { m with nextID := N }) hr
            (by rw [call_counter hd' hr, hc']; rfl) b1 b2
          have c2' : ∀ k, UniqueIds { m with nextID := k } := fun _ => c2
          simpa using c2' s.counter
        · simpa [hk] using b2

/-- C103. Whatever the threads of a process do to its netlists, the IDs of the nodes of a netlist are distinct if no
builder is constructed between two additions of nodes to it. Missing: histories in which one is, where IDs repeat
(`builds_collide`, `build_disturbs_load`). -/
theorem process_ids_partial {h : List (Nat × NetOp)} {s : Proc} (hs : Proc.steps {} h = some s) {g : Nat}
    (hu : Undisturbed h g) : UniqueIds (s.net g) := by
  have gen : ∀ (h2 h1 : List (Nat × NetOp)) (s1 : Proc), s1.steps h2 = some s → h1 ++ h2 = h → IdsBelow h1 s1 g →
      IdsBelow h s g := by
    intro h2
    induction h2 with
    | nil =>
      intro h1 s1 e1 e2 hb
      simp only [Proc.steps, Option.some.injEq] at e1
      rw [List.append_nil] at e2
      exact e1 ▸ e2 ▸ hb
    | cons c h2 ih =>
      intro h1 s1 e1 e2 hb
      simp only [Proc.steps] at e1
      cases hc : s1.step c with
      | none => rw [hc] at e1; cases e1
      | some s2 =>
        rw [hc] at e1
        refine ih (h1 ++ [c]) s2 e1 (by simpa using e2) (below_step (fun pre post k e ha hp => ?_) hb hc)
        exact hu pre (post ++ h2) k (by rw [← e2, ← List.singleton_append, ← List.append_assoc, e]; simp) ha
          (adds_left hp)
  obtain ⟨_, _, h2, _⟩ := gen h [] {} hs rfl ⟨0, by simp, fun a ha => by simp at ha, fun _ => rfl, .inl (by simp)⟩
  exact h2

/-- Loads alone do not disturb each other, in whatever order their calls are made. -/
theorem loads_undisturbed {h : List (Nat × NetOp)} {s : Proc} (hs : Proc.steps {} h = some s)
    (hl : ∀ c ∈ h, c.2 ≠ .resetIds) (g : Nat) : UniqueIds (s.net g) :=
  process_ids_partial hs fun pre post k e _ _ => hl (k, .resetIds) (e ▸ by simp) rfl

theorem split_flatten {α : Type} {c : α} : ∀ {jobs : List (List α)} {pre post : List α}, jobs.flatten = pre ++ c :: post →
    ∃ j1 job j2 p q, jobs = j1 ++ job :: j2 ∧ job = p ++ c :: q ∧ pre = j1.flatten ++ p ∧ post = q ++ j2.flatten := by
  intro jobs
  induction jobs with
  | nil => intro pre post h; simp at h
  | cons job jobs ih =>
    intro pre post h
    rw [List.flatten_cons, List.append_eq_append_iff] at h
    rcases h with ⟨p, rfl, h⟩ | ⟨q, h1, h2⟩
    · obtain ⟨j1, job', j2, p', q, rfl, rfl, rfl, rfl⟩ := ih h
      exact ⟨job :: j1, _, j2, p', q, rfl, rfl, by simp, rfl⟩
    · cases q with
      | nil =>
        simp only [List.append_nil] at h1
        simp only [List.nil_append] at h2
        obtain ⟨j1, job', j2, p', q, rfl, rfl, e1, rfl⟩ := ih (pre := []) (h2.symm.trans (List.nil_append _).symm)
        exact ⟨job :: j1, _, j2, p', q, rfl, rfl, by
          have := List.append_eq_nil_iff.1 e1.symm
          simp [h1, this.1, this.2], rfl⟩
      | cons x q =>
        simp only [List.cons_append, List.cons.injEq] at h2
        obtain ⟨rfl, rfl⟩ := h2
        exact ⟨[], job, jobs, pre, q, rfl, h1, by simp, rfl⟩

/-- C103, one after another: if a process makes its netlists by builds and loads of which each ends before the next
begins, each netlist made by one job, then all have distinct IDs. -/
theorem jobs_ids {jobs : List (Nat × List (Nat × NetOp))} {s : Proc}
    (hs : Proc.steps {} (jobs.map (·.2)).flatten = some s) (hj : ∀ j ∈ jobs, OneJob j.1 j.2)
    (hd : (jobs.map (·.1)).Nodup) (g : Nat) : UniqueIds (s.net g) := by
  refine process_ids_partial hs fun pre post k e ⟨d, ha⟩ ⟨d', hp⟩ => ?_
  obtain ⟨j1, job, j2, p, q, e1, rfl, rfl, rfl⟩ := split_flatten e
  obtain ⟨J1, J', rfl, rfl, e2⟩ := List.map_eq_append_iff.1 e1
  obtain ⟨⟨g0, ops⟩, J2, rfl, e3, rfl⟩ := List.map_eq_cons_iff.1 e2
  simp only at e3
  subst e3
  have hm := hj (g0, p ++ (k, .resetIds) :: q) (by simp)
  obtain rfl := hm.first p q k rfl
  rw [List.append_nil] at ha
  obtain ⟨l1, m1, n1⟩ := List.mem_flatten.1 ha
  obtain ⟨⟨g1, o1⟩, m2, rfl⟩ := List.mem_map.1 m1
  obtain rfl : g = g1 := (hj _ (by simp [m2])).own _ n1
  have : ∃ o2, (g, o2) ∈ (g0, [] ++ (k, .resetIds) :: q) :: J2 := by
    rcases List.mem_append.1 hp with h | h
    · obtain rfl : g = g0 := hm.own (g, .addNode d') (by simp [h])
      exact ⟨_, List.mem_cons_self ..⟩
    · obtain ⟨l2, m3, n2⟩ := List.mem_flatten.1 h
      obtain ⟨⟨g2, o2⟩, m4, rfl⟩ := List.mem_map.1 m3
      obtain rfl : g = g2 := (hj _ (by simp [m4])).own _ n2
      exact ⟨o2, List.mem_cons_of_mem _ m4⟩
  obtain ⟨o2, h2⟩ := this
  rw [List.map_append] at hd
  exact (List.nodup_append.1 hd).2.2 g (List.mem_map.2 ⟨_, m2, rfl⟩) g (List.mem_map.2 ⟨_, h2, rfl⟩) rfl

/-- With distinct IDs, `merge` compares nodes: two different nodes get a merge node with an edge from each. -/
theorem merge_distinct {net : NetGraph} (hu : UniqueIds net) {a b : Nat} (ha : a ∈ net.g.nodes) (hb : b ∈ net.g.nodes) :
    net.merge a b = if a = b then some (net, a) else
      (net.calls [.addNode .merge, .addEdge a net.g.nextNode, .addEdge b net.g.nextNode]).map (·, net.g.nextNode) := by
  unfold NetGraph.merge
  by_cases h : a = b
  · simp [h]
  · rw [if_neg (fun e => h (hu a ha b hb e)), if_neg h]
    cases net.calls [.addNode .merge, .addEdge a net.g.nextNode, .addEdge b net.g.nextNode] <;> rfl

/-! ### Concrete cases -/

/-- A build of netlist 0 and a load of netlist 1, one after the other. -/
def apartJobs : List (Nat × List (Nat × NetOp)) :=
  [(0, [(0, .resetIds), (0, .addNode (.conditional {})), (0, .addNode (.case {}))]),
   (1, [(1, .addNode .merge), (1, .addNode .merge)]),
   (2, [(2, .resetIds), (2, .addNode .merge)])]

theorem apart_makes : ∀ j ∈ apartJobs, OneJob j.1 j.2 := by
  intro j hj
  simp only [apartJobs, List.mem_cons, List.not_mem_nil, or_false] at hj
  have tail : ∀ (g : Nat) (c : Nat × NetOp) (l : List (Nat × NetOp)), (∀ x ∈ l, x.2 ≠ .resetIds) →
      ∀ pre post k, c :: l = pre ++ (k, .resetIds) :: post → pre = [] := by
    intro g c l hl pre post k e
    cases pre with
    | nil => rfl
    | cons x pre =>
      simp only [List.cons_append, List.cons.injEq] at e
      exact absurd rfl (hl (k, .resetIds) (e.2 ▸ by simp))
  rcases hj with rfl | rfl | rfl
  · exact ⟨by simp, tail 0 _ _ (by simp)⟩
  · exact ⟨by simp, tail 0 _ _ (by simp)⟩
  · exact ⟨by simp, tail 0 _ _ (by simp)⟩

example : ∃ s, Proc.steps {} (apartJobs.map (·.2)).flatten = some s ∧ ∀ g, UniqueIds (s.net g) := by
  obtain ⟨s, hs⟩ := Option.isSome_iff_exists.1 (by decide : (Proc.steps {} (apartJobs.map (·.2)).flatten).isSome = true)
  exact ⟨s, hs, jobs_ids hs apart_makes (by decide)⟩

/-- Two loads at the same time. -/
example : ∃ s, Proc.steps {} [(0, .addNode .merge), (1, .addNode .merge), (0, .addNode (.case {})), (0, .addEdge 0 1)] =
    some s ∧ ∀ g, UniqueIds (s.net g) := by
  obtain ⟨s, hs⟩ := Option.isSome_iff_exists.1 (by decide : (Proc.steps {} [(0, .addNode .merge), (1, .addNode .merge),
    (0, .addNode (.case {})), (0, .addEdge 0 1)]).isSome = true)
  exact ⟨s, hs, loads_undisturbed hs (by simp)⟩

/-- Two netlists are built at the same time. The builder of the second is constructed when the first has one node. -/
def crossedBuilds : List (Nat × NetOp) :=
  [(0, .resetIds), (0, .addNode (.conditional {})), (1, .resetIds), (0, .addNode (.case {}))]

def crossedProc : Proc := (Proc.steps {} crossedBuilds).getD {}

/-- C103 is false for builds at the same time: the two nodes have the same ID, and `merge` takes them for one node, so
that what follows depends on the first only. -/
theorem builds_collide : Proc.steps {} crossedBuilds = some crossedProc ∧
    (crossedProc.net 0).g.nodes = [0, 1] ∧ (crossedProc.net 0).id 0 = (crossedProc.net 0).id 1 ∧
    (crossedProc.net 0).merge 0 1 = some (crossedProc.net 0, 0) ∧
    (Proc.steps {} [(0, .resetIds), (0, .addNode (.conditional {})), (0, .addNode (.case {}))]).isSome ∧
    ((((Proc.steps {} [(0, .resetIds), (0, .addNode (.conditional {})), (0, .addNode (.case {}))]).getD {}).net 0).merge
      0 1).map (·.2) = some 2 :=
  ⟨rfl, by decide, by decide, rfl, by decide, by decide⟩

/-- C103 is false for a load during which a builder is constructed: IDs repeat, as in `repeated_ids_move_edges`, where
saving such a netlist moves an edge to another node. -/
theorem build_disturbs_load : ∃ s, Proc.steps {} [(0, .addNode .merge), (1, .resetIds), (0, .addNode .merge)] = some s ∧
    ¬ UniqueIds (s.net 0) := by
  refine ⟨(Proc.steps {} [(0, .addNode .merge), (1, .resetIds), (0, .addNode .merge)]).getD {}, rfl, fun h => ?_⟩
  exact absurd (h 0 (by decide) 1 (by decide) (by decide)) (by decide)

end Verif.Props

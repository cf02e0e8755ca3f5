import Verif.Proofs.LockLin

/-!
C04, C05: concurrent edge insertion.

All statements start from a graph `g` built by any history of calls, on which any number of threads
make any calls of `addEdge`/`addNewEdge` between live nodes under any schedule.
-/
set_option linter.unusedSimpArgs false
namespace Verif.Props
open Verif.Spec Verif.Model Verif.Proofs

/-! ### C04: progress -/

/-- C04: while calls are outstanding some thread can step, provided the requested `addEdge` pairs do
not form a cycle (`rank` increases along them). Self edges and `addNewEdge` are unrestricted. Without
the condition it is false: `reciprocal_insertions_deadlock`. -/
theorem insertion_progress_partial {g : DGraph} {prog : List (List Req)} (rank : Nat → Nat)
    (hr : ∀ l ∈ prog, ∀ r ∈ l, r.dedup = true → r.src ≠ r.tgt → rank r.src < rank r.tgt)
    {sched : List Nat} {s : LSt} (hs : (LSt.begin g prog).run sched = some s) (hd : ¬ AllDone s) :
    ∃ u, (s.step u).isSome :=
  no_stuck (ownInv_run sched (ownInv_begin g prog) hs) rank hr hd

/-- C04: no schedule takes more than nine steps per call, so progress means termination. -/
theorem insertions_bounded {g : DGraph} {prog : List (List Req)} {sched : List Nat} {s : LSt}
    (hs : (LSt.begin g prog).run sched = some s) : sched.length ≤ 9 * prog.flatten.length := by
  have := run_bounded sched (ownInv_begin g prog) hs
  rw [work_begin] at this
  omega

/-- C04: under the same condition every partial run can be completed. -/
theorem insertions_finish_partial {g : DGraph} {prog : List (List Req)} (rank : Nat → Nat)
    (hr : ∀ l ∈ prog, ∀ r ∈ l, r.dedup = true → r.src ≠ r.tgt → rank r.src < rank r.tgt)
    {sched : List Nat} {s : LSt} (hs : (LSt.begin g prog).run sched = some s) :
    ∃ rest s', (LSt.begin g prog).run (sched ++ rest) = some s' ∧ AllDone s' := by
  have ho := ownInv_run sched (ownInv_begin g prog) hs
  suffices H : ∀ k s, OwnInv prog s → work s prog.length ≤ k →
      ∃ rest s', s.run rest = some s' ∧ AllDone s' by
    obtain ⟨rest, s', h1, h2⟩ := H _ s ho (Nat.le_refl _)
    exact ⟨rest, s', by rw [run_append, hs]; exact h1, h2⟩
  clear hs ho s
  intro k
  induction k with
  | zero =>
    intro s ho hk
    by_cases hd : AllDone s
    · exact ⟨[], s, rfl, hd⟩
    · obtain ⟨u, hu⟩ := no_stuck ho rank hr hd
      obtain ⟨s1, h1⟩ := Option.isSome_iff_exists.1 hu
      have := step_work ho h1
      omega
  | succ k ih =>
    intro s ho hk
    by_cases hd : AllDone s
    · exact ⟨[], s, rfl, hd⟩
    · obtain ⟨u, hu⟩ := no_stuck ho rank hr hd
      obtain ⟨s1, h1⟩ := Option.isSome_iff_exists.1 hu
      have := step_work ho h1
      obtain ⟨rest, s', h2, h3⟩ := ih s1 (ownInv_step ho h1) (by omega)
      exact ⟨u :: rest, s', by simp [LSt.run, h1, h2], h3⟩

/-- C04: insertions from one source never block for ever. -/
theorem one_source_progress {g : DGraph} {prog : List (List Req)} (n : Nat)
    (h1 : ∀ l ∈ prog, ∀ r ∈ l, r.src = n) {sched : List Nat} {s : LSt}
    (hs : (LSt.begin g prog).run sched = some s) (hd : ¬ AllDone s) : ∃ u, (s.step u).isSome := by
  refine insertion_progress_partial (fun m => if m = n then 0 else 1) ?_ hs hd
  intro l hl r hr _ hne
  have := h1 l hl r hr
  rw [this] at hne
  have hne' : r.tgt ≠ n := fun h => hne h.symm
  simp [this, hne']

/-- C04: `addNewEdge` alone never blocks for ever. -/
theorem new_edges_progress {g : DGraph} {prog : List (List Req)}
    (h1 : ∀ l ∈ prog, ∀ r ∈ l, r.dedup = false) {sched : List Nat} {s : LSt}
    (hs : (LSt.begin g prog).run sched = some s) (hd : ¬ AllDone s) : ∃ u, (s.step u).isSome := by
  refine insertion_progress_partial (fun _ => 0) ?_ hs hd
  intro l hl r hr hd'
  rw [h1 l hl r hr] at hd'; cases hd'

/-- Two nodes. -/
def twoNodes : DGraph := { nodes := [0, 1], nextNode := 2 }

/-- Thread 0 adds 0 → 1, thread 1 adds 1 → 0. -/
def reciprocal : List (List Req) := [[⟨true, 0, 1⟩], [⟨true, 1, 0⟩]]

/-- C04 is false: two threads adding reciprocal edges can each hold its source while waiting for the
other's. The threads insert into different targets, as the grouping of
source/PendingRvalueQueue.cpp:113-131 ensures, so `resolveParallel` does not prevent it. -/
theorem reciprocal_insertions_deadlock :
    ∃ s, (LSt.begin twoNodes reciprocal).run [0, 0, 1, 1, 0, 0, 1, 1] = some s ∧
      (∀ u, s.step u = none) ∧ s.th 0 = .lockTgt ⟨true, 0, 1⟩ ⟨0, 0, 1⟩ ∧
      s.th 1 = .lockTgt ⟨true, 1, 0⟩ ⟨1, 1, 0⟩ ∧ ¬ AllDone s := by
  have hrun : ∃ s, (LSt.begin twoNodes reciprocal).run [0, 0, 1, 1, 0, 0, 1, 1] = some s := ⟨_, rfl⟩
  obtain ⟨s, hs⟩ := hrun
  have h0 : s.th 0 = .lockTgt ⟨true, 0, 1⟩ ⟨0, 0, 1⟩ := by
    have : ((LSt.begin twoNodes reciprocal).run [0, 0, 1, 1, 0, 0, 1, 1]).map (fun s => s.th 0) =
      some (.lockTgt ⟨true, 0, 1⟩ ⟨0, 0, 1⟩) := by decide
    rw [hs] at this; simpa using this
  have h1 : s.th 1 = .lockTgt ⟨true, 1, 0⟩ ⟨1, 1, 0⟩ := by
    have : ((LSt.begin twoNodes reciprocal).run [0, 0, 1, 1, 0, 0, 1, 1]).map (fun s => s.th 1) =
      some (.lockTgt ⟨true, 1, 0⟩ ⟨1, 1, 0⟩) := by decide
    rw [hs] at this; simpa using this
  have ho := ownInv_run _ (ownInv_begin twoNodes reciprocal) hs
  refine ⟨s, hs, ?_, h0, h1, ?_⟩
  · intro u
    match u with
    | 0 =>
      have : s.owner 1 = some 1 := (ho.own 1 1).2 (by rw [h1]; exact ⟨rfl, rfl⟩)
      simp [LSt.step, h0, LSt.stepAt, this]
    | 1 =>
      have : s.owner 0 = some 0 := (ho.own 0 0).2 (by rw [h0]; exact ⟨rfl, rfl⟩)
      simp [LSt.step, h1, LSt.stepAt, this]
    | u + 2 =>
      obtain ⟨h2, h3⟩ := ho.fin (u + 2) (by simp [reciprocal])
      simp [LSt.step, h2, LSt.stepAt, h3]
  · intro hd
    have := (hd 0).1
    rw [h0] at this; cases this

/-- Non-vacuity of the rank condition: a chain and a self edge. -/
example : ∃ rank : Nat → Nat, ∀ l ∈ [[⟨true, 0, 1⟩, ⟨true, 1, 1⟩], [⟨true, 1, 2⟩, ⟨false, 2, 0⟩]],
    ∀ r ∈ l, (r : Req).dedup = true → r.src ≠ r.tgt → rank r.src < rank r.tgt :=
  ⟨id, by decide⟩

/-! ### C05: linearizability -/

theorem abs_calls_append {A0 A1 : AbsGraph} {os : List GOut} : ∀ {ops ops' : List GOp},
    A0.calls ops = some (A1, os) → A0.calls (ops ++ ops') =
      (A1.calls ops').map fun x => (x.1, os ++ x.2) := by
  intro ops
  induction ops generalizing A0 os with
  | nil =>
    intro ops' h
    simp only [AbsGraph.calls, Option.some.injEq, Prod.mk.injEq] at h
    obtain ⟨rfl, rfl⟩ := h
    cases h : A0.calls ops' <;> simp [h]
  | cons p ops ih =>
    intro ops' h
    simp only [AbsGraph.calls, List.cons_append] at h ⊢
    cases hp : A0.call p with
    | none => rw [hp] at h; cases h
    | some x =>
      obtain ⟨A2, o⟩ := x
      rw [hp] at h
      simp only at h ⊢
      cases h2 : A2.calls ops with
      | none => rw [h2] at h; cases h
      | some y =>
        obtain ⟨A3, os3⟩ := y
        rw [h2] at h
        simp only [Option.some.injEq, Prod.mk.injEq] at h
        obtain ⟨rfl, rfl⟩ := h
        rw [ih h2]
        cases A3.calls ops' <;> simp

theorem done_lin {A0 A : AbsGraph} {prog : List (List Req)} {s : LSt} {lin : List Done}
    (h : LinInv A0 prog s A lin) (hd : AllDone s) :
    (∀ u, s.log u = ofThread lin u) ∧ (∀ u, (ofThread lin u).map Prod.fst = (prog[u]?).getD []) ∧
    ∀ n, ((s.g.obj n).inE).Perm (A.edges.filter fun e => e.tgt == n) := by
  refine ⟨?_, ?_, ?_⟩
  · intro u
    have := h.log u
    rw [(hd u).1] at this
    simpa [lined] using this
  · intro u
    have := h.prg u
    rw [(hd u).1, (hd u).2] at this
    simpa [unlin] using this
  · intro n
    have hnd : A.edges.Nodup := h.inv.sorted.imp (by intro a b h hab; subst hab; omega)
    rw [List.perm_ext_iff_of_nodup (h.innNodup n) (hnd.filter _)]
    intro e
    rw [h.innMem]
    simp only [List.mem_filter, beq_iff_eq]
    constructor
    · rintro ⟨h1, h2, _⟩; exact ⟨h1, h2⟩
    · rintro ⟨h1, h2⟩
      refine ⟨h1, h2, ?_⟩
      intro u r
      rw [(hd u).1]
      simp [pend]

/-- C05: whatever the schedule, a completed concurrent run did what the sequential code does for some
order of the calls that respects each thread's order: all calls return the same edges, and every node
ends with the same out-edges in the same order and the same in-edges up to order. -/
theorem insertions_linearizable {ops : List GOp} {os : List GOut} {g : DGraph}
    (hg : DGraph.calls {} ops = some (g, os)) {prog : List (List Req)}
    (hw : ∀ l ∈ prog, ∀ r ∈ l, r.src ∈ g.nodes ∧ r.tgt ∈ g.nodes) {sched : List Nat} {s : LSt}
    (hs : (LSt.begin g prog).run sched = some s) (hd : AllDone s) :
    ∃ (lin : List Done) (g' : DGraph),
      DGraph.calls {} (ops ++ lin.map fun d => reqOp d.req) =
        some (g', os ++ lin.map fun d => .edge d.edge) ∧
      (∀ u, s.log u = ofThread lin u) ∧
      (∀ u, (ofThread lin u).map Prod.fst = (prog[u]?).getD []) ∧
      ∀ n, (s.g.obj n).outE = (g'.obj n).outE ∧ ((s.g.obj n).inE).Perm (g'.obj n).inE := by
  obtain ⟨A0, hA0, hr, hi⟩ := calls_rel hg
  rw [hr.nodes] at hw
  obtain ⟨A, lin, h⟩ := linInv_run hw sched (ownInv_begin g prog) (linInv_begin hr hi prog) hs
  obtain ⟨h1, h2, h3⟩ := done_lin h hd
  have hcalls := abs_calls_append (ops' := lin.map fun d => reqOp d.req) hA0
  rw [h.calls] at hcalls
  have hsim := calls_sim rel_empty absInv_empty (ops ++ lin.map fun d => reqOp d.req)
  rw [hcalls] at hsim
  obtain ⟨g', hg', hr', _⟩ := hsim
  refine ⟨lin, g', hg', h1, h2, ?_⟩
  intro n
  rw [h.out, hr'.out, hr'.inn]
  exact ⟨rfl, h3 n⟩

/-- Edges from `s` to `t` in the edge-list specification. -/
def between (A : AbsGraph) (s t : Nat) : List Edge :=
  A.edges.filter fun e => e.src == s && e.tgt == t

theorem adds_first : ∀ {lin : List Done} {A0 A : AbsGraph},
    A0.calls (lin.map fun d => reqOp d.req) = some (A, lin.map fun d => .edge d.edge) →
    (∃ new, A.edges = A0.edges ++ new) ∧
    ∀ d ∈ lin, d.req.dedup = true →
      (between A d.req.src d.req.tgt).head? = some d.edge := by
  intro lin
  induction lin with
  | nil =>
    intro A0 A h
    simp only [List.map_nil, AbsGraph.calls, Option.some.injEq, Prod.mk.injEq] at h
    obtain ⟨rfl, _⟩ := h
    exact ⟨⟨[], by simp⟩, by simp⟩
  | cons d lin ih =>
    intro A0 A h
    simp only [List.map_cons, AbsGraph.calls] at h
    cases hc : A0.call (reqOp d.req) with
    | none => rw [hc] at h; cases h
    | some x =>
      obtain ⟨A1, o⟩ := x
      rw [hc] at h
      simp only at h
      cases h2 : A1.calls (lin.map fun d => reqOp d.req) with
      | none => rw [h2] at h; cases h
      | some y =>
        obtain ⟨A2, os⟩ := y
        rw [h2] at h
        simp only [Option.some.injEq, Prod.mk.injEq, List.cons.injEq] at h
        obtain ⟨rfl, rfl, rfl⟩ := h
        obtain ⟨⟨new, hnew⟩, hfirst⟩ := ih h2
        have hstep : (∃ new, A1.edges = A0.edges ++ new) ∧ (d.req.dedup = true →
            (between A1 d.req.src d.req.tgt).head? = some d.edge) := by
          cases hd : d.req.dedup with
          | false =>
            simp only [reqOp, hd, Bool.false_eq_true, ↓reduceIte, AbsGraph.call] at hc
            split at hc
            · simp only [Option.some.injEq, Prod.mk.injEq] at hc
              obtain ⟨rfl, _⟩ := hc
              exact ⟨⟨_, rfl⟩, by simp⟩
            · cases hc
          | true =>
            simp only [reqOp, hd, ↓reduceIte, AbsGraph.call] at hc
            split at hc
            · split at hc
              · rename_i e he
                simp only [Option.some.injEq, Prod.mk.injEq, GOut.edge.injEq] at hc
                obtain ⟨rfl, rfl⟩ := hc
                refine ⟨⟨[], by simp⟩, fun _ => ?_⟩
                rw [between, List.head?_filter]; exact he
              · rename_i he
                simp only [Option.some.injEq, Prod.mk.injEq, GOut.edge.injEq] at hc
                obtain ⟨rfl, hh⟩ := hc
                refine ⟨⟨_, rfl⟩, fun _ => ?_⟩
                rw [between, List.head?_filter, List.find?_append, he, ← hh]
                simp
            · cases hc
        obtain ⟨⟨n1, hn1⟩, hf1⟩ := hstep
        refine ⟨⟨n1 ++ new, by rw [hnew, hn1, List.append_assoc]⟩, ?_⟩
        intro d' hd' hdd
        rcases List.mem_cons.1 hd' with rfl | hd'
        · have := hf1 hdd
          rw [between, List.head?_filter] at this ⊢
          rw [hnew, List.find?_append, this]
          rfl
        · exact hfirst d' hd' hdd

theorem dedup_between : ∀ {lin : List Done} {A0 A : AbsGraph},
    A0.calls (lin.map fun d => reqOp d.req) = some (A, lin.map fun d => .edge d.edge) →
    (∀ d ∈ lin, d.req.dedup = true) → ∀ s t,
      if between A0 s t ≠ [] ∨ ∀ d ∈ lin, ¬ (d.req.src = s ∧ d.req.tgt = t)
      then between A s t = between A0 s t else (between A s t).length = 1 := by
  intro lin
  induction lin with
  | nil =>
    intro A0 A h _ s t
    simp only [List.map_nil, AbsGraph.calls, Option.some.injEq, Prod.mk.injEq] at h
    obtain ⟨rfl, _⟩ := h
    simp
  | cons d lin ih =>
    intro A0 A h hd s t
    simp only [List.map_cons, AbsGraph.calls] at h
    cases hc : A0.call (reqOp d.req) with
    | none => rw [hc] at h; cases h
    | some x =>
      obtain ⟨A1, o⟩ := x
      rw [hc] at h
      simp only at h
      cases h2 : A1.calls (lin.map fun d => reqOp d.req) with
      | none => rw [h2] at h; cases h
      | some y =>
        obtain ⟨A2, os⟩ := y
        rw [h2] at h
        simp only [Option.some.injEq, Prod.mk.injEq, List.cons.injEq] at h
        obtain ⟨rfl, rfl, rfl⟩ := h
        have ih' := ih h2 (fun d' h' => hd d' (List.mem_cons_of_mem _ h')) s t
        have hdd := hd d List.mem_cons_self
        simp only [reqOp, hdd, ↓reduceIte, AbsGraph.call] at hc
        split at hc
        · split at hc
          · rename_i e he
            simp only [Option.some.injEq, Prod.mk.injEq, GOut.edge.injEq] at hc
            obtain ⟨rfl, rfl⟩ := hc
            by_cases hb : between A0 s t = []
            · have hne : ¬ (d.req.src = s ∧ d.req.tgt = t) := by
                rintro ⟨rfl, rfl⟩
                have : (between A0 d.req.src d.req.tgt).head? = some d.edge := by
                  rw [between, List.head?_filter]; exact he
                rw [hb] at this; cases this
              simp only [hb, ne_eq, not_true_eq_false, false_or, List.forall_mem_cons, hne,
                not_false_eq_true, true_and] at ih' ⊢
              exact ih'
            · simp only [hb, ne_eq, not_false_eq_true, true_or, ↓reduceIte] at ih' ⊢
              exact ih'
          · rename_i he
            simp only [Option.some.injEq, Prod.mk.injEq, GOut.edge.injEq] at hc
            obtain ⟨rfl, _⟩ := hc
            by_cases hst : d.req.src = s ∧ d.req.tgt = t
            · obtain ⟨rfl, rfl⟩ := hst
              have hb0 : between A0 d.req.src d.req.tgt = [] := by
                rw [between, ← List.head?_eq_none_iff, List.head?_filter]; exact he
              have hb1 : between ⟨A0.nodes, A0.edges ++ [⟨A0.nextEdge, d.req.src, d.req.tgt⟩],
                  A0.nextNode, A0.nextEdge + 1⟩ d.req.src d.req.tgt =
                  [⟨A0.nextEdge, d.req.src, d.req.tgt⟩] := by
                rw [between] at hb0 ⊢
                simp only [List.filter_append, hb0]
                simp
              simp only [hb1, ne_eq, List.cons_ne_self, not_false_eq_true, true_or, ↓reduceIte,
                reduceCtorEq] at ih'
              simp only [hb0, ne_eq, not_true_eq_false, false_or, List.forall_mem_cons, and_self,
                not_true_eq_false, false_and, ↓reduceIte, ih', List.length_singleton]
            · have hb1 : between ⟨A0.nodes, A0.edges ++ [⟨A0.nextEdge, d.req.src, d.req.tgt⟩],
                  A0.nextNode, A0.nextEdge + 1⟩ s t = between A0 s t := by
                unfold between
                simp only [List.filter_append]
                simp only [List.filter_cons, List.filter_nil, Bool.and_eq_true, beq_iff_eq, hst,
                  ↓reduceIte, List.append_nil]
              rw [hb1] at ih'
              simp only [List.forall_mem_cons, hst, not_false_eq_true, true_and]
              exact ih'
        · cases hc

/-- C05: when all calls are `addEdge`, whatever the schedule: for each pair of nodes, edges that
existed are untouched and a requested pair without edge gets exactly one; all callers for the pair get
the same edge, the first of the pair; and the target lists exactly the edges of the pair, once each. -/
theorem dedup_exactly_once {ops : List GOp} {os : List GOut} {g : DGraph}
    (hg : DGraph.calls {} ops = some (g, os)) {prog : List (List Req)}
    (hw : ∀ l ∈ prog, ∀ r ∈ l, r.src ∈ g.nodes ∧ r.tgt ∈ g.nodes)
    (hd : ∀ l ∈ prog, ∀ r ∈ l, r.dedup = true) {sched : List Nat} {s : LSt}
    (hs : (LSt.begin g prog).run sched = some s) (hdone : AllDone s) (a b : Nat) :
    (if g.getEdgesTo a b ≠ [] ∨ ∀ l ∈ prog, ∀ r ∈ l, ¬ (r.src = a ∧ r.tgt = b)
      then s.g.getEdgesTo a b = g.getEdgesTo a b else (s.g.getEdgesTo a b).length = 1) ∧
    (∀ u r e, (r, e) ∈ s.log u → r.src = a → r.tgt = b → s.g.findEdgeTo a b = some e) ∧
    (∀ u, (s.log u).map Prod.fst = (prog[u]?).getD []) ∧
    (((s.g.obj b).inE).filter fun e => e.src == a).Perm (s.g.getEdgesTo a b) ∧
    ((s.g.obj b).inE).Nodup := by
  obtain ⟨A0, hA0, hr, hi⟩ := calls_rel hg
  rw [hr.nodes] at hw
  obtain ⟨A, lin, h⟩ := linInv_run hw sched (ownInv_begin g prog) (linInv_begin hr hi prog) hs
  obtain ⟨h1, h2, h3⟩ := done_lin h hdone
  have hbt : s.g.getEdgesTo a b = between A a b := by
    rw [DGraph.getEdgesTo, h.out, between, List.filter_filter]
    congr 1; funext e; rw [Bool.and_comm]
  have hbt0 : g.getEdgesTo a b = between A0 a b := by
    rw [DGraph.getEdgesTo, hr.out, between, List.filter_filter]
    congr 1; funext e; rw [Bool.and_comm]
  have hmem : ∀ r, (∃ d ∈ lin, d.req = r) ↔ ∃ l ∈ prog, r ∈ l := by
    intro r
    constructor
    · rintro ⟨d, hd', rfl⟩
      have : d.req ∈ (ofThread lin d.thread).map Prod.fst := by
        refine List.mem_map.2 ⟨(d.req, d.edge), ?_, rfl⟩
        exact List.mem_map.2 ⟨d, List.mem_filter.2 ⟨hd', by simp⟩, rfl⟩
      rw [h2] at this
      cases hp : prog[d.thread]? with
      | none => simp [hp] at this
      | some l => rw [hp] at this; exact ⟨l, List.mem_of_getElem? hp, this⟩
    · rintro ⟨l, hl, hrl⟩
      obtain ⟨u, hu⟩ := List.getElem?_of_mem hl
      have : r ∈ (ofThread lin u).map Prod.fst := by rw [h2, hu]; exact hrl
      obtain ⟨x, hx, rfl⟩ := List.mem_map.1 this
      obtain ⟨d, hd', rfl⟩ := List.mem_map.1 hx
      exact ⟨d, (List.mem_filter.1 hd').1, rfl⟩
  have hall : ∀ d ∈ lin, d.req.dedup = true := by
    intro d hd'
    obtain ⟨l, hl, hrl⟩ := (hmem d.req).1 ⟨d, hd', rfl⟩
    exact hd l hl _ hrl
  refine ⟨?_, ?_, ?_, ?_, h.innNodup b⟩
  · have := dedup_between h.calls hall a b
    rw [hbt, hbt0]
    have hiff : (∀ d ∈ lin, ¬ (d.req.src = a ∧ d.req.tgt = b)) ↔
        ∀ l ∈ prog, ∀ r ∈ l, ¬ (r.src = a ∧ r.tgt = b) := by
      constructor
      · intro h' l hl r hrl
        obtain ⟨d, hd', rfl⟩ := (hmem r).2 ⟨l, hl, hrl⟩
        exact h' d hd'
      · intro h' d hd'
        obtain ⟨l, hl, hrl⟩ := (hmem d.req).1 ⟨d, hd', rfl⟩
        exact h' l hl _ hrl
    simp only [hiff] at this
    exact this
  · rintro u r e hre rfl rfl
    rw [h1] at hre
    obtain ⟨d, hd', hde⟩ := List.mem_map.1 hre
    simp only [Prod.mk.injEq] at hde
    obtain ⟨rfl, rfl⟩ := hde
    have hdl := (List.mem_filter.1 hd').1
    have := (adds_first h.calls).2 d hdl (hall d hdl)
    rw [DGraph.findEdgeTo, ← List.head?_filter]
    rw [← hbt] at this
    exact this
  · intro u; rw [h1]; exact h2 u
  · rw [hbt]
    refine ((h3 b).filter _).trans ?_
    rw [List.filter_filter, between]

/-- Non-vacuity: two threads both asking for 0 → 1, one also for 1 → 1; interleaved; both get edge 0. -/
theorem two_askers : ∃ s, (LSt.begin twoNodes [[⟨true, 0, 1⟩], [⟨true, 0, 1⟩, ⟨true, 1, 1⟩]]).run
      [1, 0, 0, 0, 0, 0, 0, 0, 0, 1, 1, 1, 1, 1, 1, 1, 1, 1] = some s ∧ AllDone s ∧
      s.log 0 = [(⟨true, 0, 1⟩, ⟨0, 0, 1⟩)] ∧
      s.log 1 = [(⟨true, 0, 1⟩, ⟨0, 0, 1⟩), (⟨true, 1, 1⟩, ⟨1, 1, 1⟩)] := by
  have hrun : ∃ s, (LSt.begin twoNodes [[⟨true, 0, 1⟩], [⟨true, 0, 1⟩, ⟨true, 1, 1⟩]]).run
      [1, 0, 0, 0, 0, 0, 0, 0, 0, 1, 1, 1, 1, 1, 1, 1, 1, 1] = some s := ⟨_, rfl⟩
  obtain ⟨s, hs⟩ := hrun
  have ho := ownInv_run _ (ownInv_begin _ _) hs
  have hv : ((LSt.begin twoNodes [[⟨true, 0, 1⟩], [⟨true, 0, 1⟩, ⟨true, 1, 1⟩]]).run
      [1, 0, 0, 0, 0, 0, 0, 0, 0, 1, 1, 1, 1, 1, 1, 1, 1, 1]).map
        (fun s => (s.th 0, s.th 1, s.todo 0, s.todo 1, s.log 0, s.log 1)) =
      some (.idle, .idle, [], [], [(⟨true, 0, 1⟩, ⟨0, 0, 1⟩)],
        [(⟨true, 0, 1⟩, ⟨0, 0, 1⟩), (⟨true, 1, 1⟩, ⟨1, 1, 1⟩)]) := by rfl
  rw [hs] at hv
  simp only [Option.map_some, Option.some.injEq, Prod.mk.injEq] at hv
  obtain ⟨v0, v1, v2, v3, v4, v5⟩ := hv
  refine ⟨s, hs, ?_, v4, v5⟩
  intro u
  match u with
  | 0 => exact ⟨v0, v2⟩
  | 1 => exact ⟨v1, v3⟩
  | u + 2 => exact ho.fin (u + 2) (by simp)

theorem twoNodes_calls : DGraph.calls {} [.addNode, .addNode] = some (twoNodes, [.node 0, .node 1]) := by
  have : (fun n => if n = 1 then ({} : NodeObj) else if n = 0 then {} else {}) = fun _ => {} := by
    funext n; split <;> (try split) <;> rfl
  exact congrArg (fun o => some (({ nodes := [0, 1], obj := o, nextNode := 2 } : DGraph), [GOut.node 0, GOut.node 1])) this

/-- The theorems apply to this run. -/
example : True := by
  obtain ⟨s, hs, hd, _⟩ := two_askers
  have := insertions_linearizable twoNodes_calls (by decide) hs hd
  have := dedup_exactly_once twoNodes_calls (by decide) (by decide) hs hd 0 1
  have := insertions_bounded hs
  have := insertions_finish_partial id (by decide) hs
  trivial

/-- Stopped in the middle, the first thread can go on. -/
example : ∃ s, (LSt.begin twoNodes [[⟨true, 0, 1⟩], [⟨true, 0, 1⟩]]).run [1, 0, 0] = some s ∧ ¬ AllDone s ∧
    ∃ u, (s.step u).isSome := by
  obtain ⟨s, hs⟩ : ∃ s, (LSt.begin twoNodes [[⟨true, 0, 1⟩], [⟨true, 0, 1⟩]]).run [1, 0, 0] = some s := ⟨_, rfl⟩
  have hv : ((LSt.begin twoNodes [[⟨true, 0, 1⟩], [⟨true, 0, 1⟩]]).run [1, 0, 0]).map
      (fun s => match s.th 0 with | .idle => true | _ => false) = some false := by rfl
  rw [hs] at hv
  simp only [Option.map_some, Option.some.injEq] at hv
  have hn : ¬ AllDone s := fun h => by rw [(h 0).1] at hv; cases hv
  exact ⟨s, hs, hn, one_source_progress 0 (by decide) hs hn⟩

/-- Two threads each adding a parallel edge 0 → 1. -/
def twoNew : List (List Req) := [[⟨false, 0, 1⟩], [⟨false, 0, 1⟩]]

/-- C02 does not extend to concurrent `addNewEdge`: the target can list two parallel edges in the
opposite order to the source, and then `removeEdge` destroys edge 0 while dropping the pointer to edge
1, leaving the target with a pointer to the destroyed edge 0. -/
theorem parallel_edges_dangle :
    ((LSt.begin twoNodes twoNew).run [0, 0, 0, 0, 1, 1, 1, 1, 1, 1, 1, 0, 0, 0]).map (fun s =>
      ((s.g.obj 0).outE, (s.g.obj 1).inE,
        (s.g.removeEdge 0 1).map fun x => ((x.1.obj 0).outE, (x.1.obj 1).inE))) =
    some ([⟨0, 0, 1⟩, ⟨1, 0, 1⟩], [⟨1, 0, 1⟩, ⟨0, 0, 1⟩], some ([⟨1, 0, 1⟩], [⟨0, 0, 1⟩])) := by
  decide

/-- Two threads that each add a parallel edge, stopped after two steps: one of them can go on. -/
example : ∃ s, (LSt.begin twoNodes [[⟨false, 0, 1⟩], [⟨false, 1, 0⟩]]).run [1, 0] = some s ∧ ¬ AllDone s ∧
    ∃ u, (s.step u).isSome := by
  obtain ⟨s, hs⟩ : ∃ s, (LSt.begin twoNodes [[⟨false, 0, 1⟩], [⟨false, 1, 0⟩]]).run [1, 0] = some s := ⟨_, rfl⟩
  have hv : ((LSt.begin twoNodes [[⟨false, 0, 1⟩], [⟨false, 1, 0⟩]]).run [1, 0]).map
      (fun s => match s.th 0 with | .idle => true | _ => false) = some false := by rfl
  rw [hs] at hv
  simp only [Option.map_some, Option.some.injEq] at hv
  have hn : ¬ AllDone s := fun h => by rw [(h 0).1] at hv; cases hv
  exact ⟨s, hs, hn, new_edges_progress (by decide) hs hn⟩

end Verif.Props

import Verif.Proofs.Dfs

/-!
Property theorems C19: depth-first traversal.

`G` is any adjacency structure (forward or backward, with any edge predicate). `Closed G univ`
says that accepted edges of nodes in `univ` lead to nodes in `univ`; every graph reached by API
calls satisfies it (see `Props/Query*.lean`).
-/
set_option linter.unusedSimpArgs false
namespace Verif.Props
open Verif.Spec Verif.Model Verif.Proofs

variable {ε : Type}

/-- C19: the traversal loop reaches an empty stack, after which nothing changes. -/
theorem dfs_terminates (G : Adj ε) (univ : List Nat) (start : Nat)
    (hc : ∀ n ∈ univ, ∀ e ∈ G.edges n, G.ok e = true → G.next e ∈ univ) (hs : start ∈ univ) :
    (dfsRun G univ start).stack = [] ∧
    ∀ k, dfsFuel G univ ≤ k → dfsIter G k (dfsInit G start) = dfsRun G univ start := by
  have h0 : (dfsRun G univ start).stack = [] := dfsRun_stack hc hs
  refine ⟨h0, ?_⟩
  have hstep : ∀ s : DfsState ε, s.stack = [] → ∀ j, dfsIter G j s = s := by
    intro s h j
    induction j with
    | zero => rfl
    | succ j ih =>
      have : dfsStep G s = s := by unfold dfsStep; rw [h]
      simp only [dfsIter, this, ih]
  have hadd : ∀ a b (s : DfsState ε), dfsIter G (a + b) s = dfsIter G b (dfsIter G a s) := by
    intro a
    induction a with
    | zero => intro b s; simp [dfsIter]
    | succ a ih => intro b s; rw [Nat.succ_add]; simp only [dfsIter]; exact ih b _
  intro k hk
  obtain ⟨j, rfl⟩ := Nat.exists_eq_add_of_le hk
  rw [hadd]
  exact hstep _ h0 j

/-- C19: each reachable node is announced by `visitNode` exactly once, and nothing else is. -/
theorem dfs_visits_exactly_reachable (G : Adj ε) (univ : List Nat) (start : Nat)
    (hc : ∀ n ∈ univ, ∀ e ∈ G.edges n, G.ok e = true → G.next e ∈ univ) (hs : start ∈ univ) :
    ((dfsEvents G univ start).filterMap evNode).Nodup ∧
    ∀ n, n ∈ (dfsEvents G univ start).filterMap evNode ↔
      Reach (fun a b => ∃ e ∈ G.edges a, G.ok e = true ∧ G.next e = b) start n := by
  rw [dfsEvents_nodes]
  refine ⟨List.pairwise_reverse.2 ((dfsRun_inv G univ start).vnodup.imp fun h => h.symm), fun n => ?_⟩
  rw [List.mem_reverse]
  exact dfsRun_visited hc hs n

/-- The node at the far end of an edge announced as examined: a tree edge or an edge to a node
already visited. -/
def evTarget (G : Adj ε) : Ev ε → Option Nat
  | .visitNode _ => none
  | .visitedNode n => some n
  | .visitEdge e => some (G.next e)
  | .popNode => none

/-- Far ends of the accepted edges in a list. -/
def okTargets (G : Adj ε) (es : List ε) : List Nat := (es.filter G.ok).map G.next

theorem dfs_examined_inv {G : Adj ε} {s : DfsState ε}
    (h : (s.log.filterMap (evTarget G) ++ s.stack.flatMap fun p => okTargets G p.2).Perm
      (s.visited.flatMap fun n => okTargets G (G.edges n))) :
    ((dfsStep G s).log.filterMap (evTarget G) ++
      (dfsStep G s).stack.flatMap fun p => okTargets G p.2).Perm
      ((dfsStep G s).visited.flatMap fun n => okTargets G (G.edges n)) := by
  obtain ⟨visited, stack, log⟩ := s
  unfold dfsStep
  split
  · exact h
  · rename_i n rest heq
    simp only at heq; subst heq
    simpa [evTarget, List.filterMap_cons, okTargets] using h
  · rename_i n e es rest heq
    simp only at heq; subst heq
    by_cases hok : G.ok e = true
    · have h' : (G.next e :: (log.filterMap (evTarget G) ++ (okTargets G es ++
          rest.flatMap fun p => okTargets G p.2))).Perm
          (visited.flatMap fun n => okTargets G (G.edges n)) := by
        refine List.Perm.trans ?_ h
        simp only [List.flatMap_cons]
        have : okTargets G (e :: es) = G.next e :: okTargets G es := by
          simp [okTargets, List.filter_cons, hok]
        rw [this, List.cons_append]
        exact (List.perm_middle).symm
      simp only [hok, Bool.not_true, Bool.false_eq_true, ↓reduceIte]
      by_cases hv : G.next e ∈ visited
      · simp only [hv, ↓reduceIte, evTarget, List.filterMap_cons, List.flatMap_cons,
          List.cons_append]
        exact h'
      · simp only [hv, ↓reduceIte, evTarget, List.filterMap_cons, List.flatMap_cons,
          List.cons_append]
        refine List.Perm.trans ?_ (List.Perm.append_left _ h')
        refine List.Perm.trans ?_ (List.perm_middle).symm
        refine List.Perm.cons _ ?_
        rw [← List.append_assoc, ← List.append_assoc, ← List.append_assoc, ← List.append_assoc]
        exact List.Perm.append_right _ (List.Perm.append_right _ List.perm_append_comm)
    · simp only [Bool.not_eq_true] at hok
      simp only [hok, Bool.not_false, ↓reduceIte]
      have : okTargets G (e :: es) = okTargets G es := by
        simp [okTargets, List.filter_cons, hok]
      simpa only [List.flatMap_cons, this] using h

/-- C19: each accepted out-edge of each visited node is examined exactly once: the announced
edge targets are, as a multiset, the targets of the accepted edges of the visited nodes. -/
theorem dfs_examines_each_edge_once (G : Adj ε) (univ : List Nat) (start : Nat)
    (hc : ∀ n ∈ univ, ∀ e ∈ G.edges n, G.ok e = true → G.next e ∈ univ) (hs : start ∈ univ) :
    ((dfsEvents G univ start).filterMap (evTarget G)).Perm
      (((dfsEvents G univ start).filterMap evNode).flatMap fun n =>
        ((G.edges n).filter G.ok).map G.next) := by
  have h : ((dfsRun G univ start).log.filterMap (evTarget G) ++
      (dfsRun G univ start).stack.flatMap fun p => okTargets G p.2).Perm
      ((dfsRun G univ start).visited.flatMap fun n => okTargets G (G.edges n)) := by
    apply dfsIter_induct (P := fun s => (s.log.filterMap (evTarget G) ++
      s.stack.flatMap fun p => okTargets G p.2).Perm
      (s.visited.flatMap fun n => okTargets G (G.edges n)))
    · intro s h; exact dfs_examined_inv h
    · simp [dfsInit, evTarget, List.filterMap_cons]
  rw [dfsRun_stack hc hs] at h
  simp only [List.flatMap_nil, List.append_nil] at h
  rw [dfsEvents_nodes]
  unfold dfsEvents
  rw [List.filterMap_reverse]
  refine (List.reverse_perm _).trans (h.trans ?_)
  exact List.Perm.flatMap_right _ (List.reverse_perm _).symm

/-- One for each `popNode` callback. -/
def isPop : Ev ε → Bool
  | .visitNode _ => false
  | .visitedNode _ => false
  | .visitEdge _ => false
  | .popNode => true

theorem dfs_pops_inv {G : Adj ε} {s : DfsState ε}
    (h : s.log.countP isPop + s.stack.length = s.visited.length) :
    (dfsStep G s).log.countP isPop + (dfsStep G s).stack.length =
      (dfsStep G s).visited.length := by
  obtain ⟨visited, stack, log⟩ := s
  unfold dfsStep
  split
  · exact h
  · rename_i n rest heq
    simp only at heq; subst heq
    simp [isPop, List.countP_cons] at h ⊢; omega
  · rename_i n e es rest heq
    simp only at heq; subst heq
    split
    · simpa using h
    · split
      · simpa [isPop, List.countP_cons] using h
      · simp [isPop, List.countP_cons] at h ⊢; omega

/-- C19: every visited node is finished: there are as many `popNode` callbacks as visited
nodes. -/
theorem dfs_finishes_each_node (G : Adj ε) (univ : List Nat) (start : Nat)
    (hc : ∀ n ∈ univ, ∀ e ∈ G.edges n, G.ok e = true → G.next e ∈ univ) (hs : start ∈ univ) :
    (dfsEvents G univ start).countP isPop =
      ((dfsEvents G univ start).filterMap evNode).length := by
  have h : (dfsRun G univ start).log.countP isPop + (dfsRun G univ start).stack.length =
      (dfsRun G univ start).visited.length := by
    apply dfsIter_induct (P := fun s =>
      s.log.countP isPop + s.stack.length = s.visited.length)
    · intro s h; exact dfs_pops_inv h
    · simp [dfsInit, isPop, List.countP_cons]
  rw [dfsRun_stack hc hs] at h
  rw [dfsEvents_nodes]
  simp only [dfsEvents, List.countP_reverse, List.length_reverse]
  simpa using h

/-- Non-vacuity: a four-node graph with a cycle, a self loop, parallel edges and a rejected edge
(edges are pairs source/target, the edge to node 3 is rejected). -/
def sampleAdj : Adj (Nat × Nat) where
  edges n := [(0, 1), (0, 1), (1, 2), (2, 0), (2, 2), (1, 3)].filter fun e => e.1 == n
  ok e := e.2 != 3
  next e := e.2

example : ∀ n ∈ [0, 1, 2, 3], ∀ e ∈ sampleAdj.edges n, sampleAdj.ok e = true →
    sampleAdj.next e ∈ [0, 1, 2, 3] := by decide

example : dfsEvents sampleAdj [0, 1, 2, 3] 0 =
    [.visitNode 0, .visitEdge (0, 1), .visitNode 1, .visitEdge (1, 2), .visitNode 2,
     .visitedNode 0, .visitedNode 2, .popNode, .popNode, .visitedNode 1, .popNode] := by
  decide

/-- The theorems apply to this graph. -/
example := dfs_visits_exactly_reachable sampleAdj [0, 1, 2, 3] 0 (by decide) (by decide)
example := dfs_terminates sampleAdj [0, 1, 2, 3] 0 (by decide) (by decide)
example := dfs_examines_each_edge_once sampleAdj [0, 1, 2, 3] 0 (by decide) (by decide)
example := dfs_finishes_each_node sampleAdj [0, 1, 2, 3] 0 (by decide) (by decide)

end Verif.Props

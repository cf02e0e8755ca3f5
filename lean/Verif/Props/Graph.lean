import Verif.Proofs.DirectedGraph

/-!
Property theorems C01-C03: the adjacency-list graph.

All statements quantify over every history `ops` of client calls on an initially empty graph.
`DGraph.calls {} ops = some (g, os)` says the history named only live nodes; `os` are the values
returned.
-/
set_option linter.unusedSimpArgs false
namespace Verif.Props
open Verif.Spec Verif.Model Verif.Proofs

/-- C01/C02/C03 refinement: every history of calls on the adjacency-list graph returns exactly
the values the edge-list specification returns. In particular it fails an internal assertion
(`none`) only when the specification rejects the call for naming a dead node. -/
theorem graph_refines_edge_list (ops : List GOp) :
    (DGraph.calls {} ops).map Prod.snd = (AbsGraph.calls {} ops).map Prod.snd := by
  have := calls_sim rel_empty absInv_empty ops
  cases hA : AbsGraph.calls {} ops with
  | none => rw [hA] at this; simp only at this; simp [this]
  | some r =>
    obtain ⟨A, os⟩ := r
    rw [hA] at this
    obtain ⟨g, hg, _⟩ := this
    simp [hg]

/-- C01: after any history, the in-edges of a live node are, as a multiset, the out-edges of live
nodes that point to it; every listed edge joins live nodes; edge objects are distinct. -/
theorem in_edges_mirror_out_edges (ops : List GOp) (g : DGraph) (os : List GOut)
    (h : DGraph.calls {} ops = some (g, os)) :
    (∀ t ∈ g.nodes, ((g.obj t).inE).Perm
      ((g.nodes.flatMap fun n => (g.obj n).outE).filter fun e => e.tgt == t)) ∧
    (∀ n ∈ g.nodes, ∀ e ∈ (g.obj n).outE, e.src = n ∧ e.tgt ∈ g.nodes) ∧
    (∀ n ∈ g.nodes, ∀ e ∈ (g.obj n).inE, e.tgt = n ∧ e.src ∈ g.nodes) ∧
    ((g.nodes.flatMap fun n => (g.obj n).outE).map Edge.id).Nodup := by
  obtain ⟨A, _, hr, hi⟩ := calls_rel h
  have hnd : (g.nodes.flatMap fun n => (g.obj n).outE).Pairwise fun a b => a.id ≠ b.id := by
    rw [List.pairwise_flatMap]
    constructor
    · intro n _
      rw [hr.out]
      exact (hi.sorted.sublist List.filter_sublist).imp (fun h => Nat.ne_of_lt h)
    · rw [hr.nodes]
      refine hi.nodup.imp ?_
      intro a b hab x hx y hy hxy
      rw [hr.out] at hx hy
      obtain ⟨hx1, hx2⟩ := List.mem_filter.1 hx
      obtain ⟨hy1, hy2⟩ := List.mem_filter.1 hy
      have : x = y := by
        have hs := hi.sorted
        obtain ⟨i, hi', rfl⟩ := List.getElem_of_mem hx1
        obtain ⟨j, hj, rfl⟩ := List.getElem_of_mem hy1
        rcases Nat.lt_trichotomy i j with hlt | heq | hgt
        · have := List.pairwise_iff_getElem.1 hs i j hi' hj hlt; omega
        · subst heq; rfl
        · have := List.pairwise_iff_getElem.1 hs j i hj hi' hgt; omega
      subst this
      simp only [beq_iff_eq] at hx2 hy2
      exact hab (hx2.symm.trans hy2)
  refine ⟨?_, ?_, ?_, ?_⟩
  · intro t _
    rw [hr.inn]
    have h1 : (A.edges.filter fun e => e.tgt == t).Nodup :=
      (hi.sorted.sublist List.filter_sublist).imp (fun h hc => by rw [hc] at h; omega)
    have h2 : ((g.nodes.flatMap fun n => (g.obj n).outE).filter fun e => e.tgt == t).Nodup :=
      (hnd.sublist List.filter_sublist).imp (fun h hc => by rw [hc] at h; exact h rfl)
    rw [List.perm_ext_iff_of_nodup h1 h2]
    intro e
    simp only [List.mem_filter, List.mem_flatMap, hr.out, hr.nodes]
    constructor
    · rintro ⟨h1, h2⟩
      exact ⟨⟨e.src, (hi.ends e h1).1, h1, by simp⟩, h2⟩
    · rintro ⟨⟨_, _, h1, _⟩, h2⟩
      exact ⟨h1, h2⟩
  · intro n _ e he
    rw [hr.out] at he
    obtain ⟨h1, h2⟩ := List.mem_filter.1 he
    exact ⟨by simpa using h2, by rw [hr.nodes]; exact (hi.ends e h1).2.1⟩
  · intro n _ e he
    rw [hr.inn] at he
    obtain ⟨h1, h2⟩ := List.mem_filter.1 he
    exact ⟨by simpa using h2, by rw [hr.nodes]; exact (hi.ends e h1).1⟩
  · exact List.pairwise_map.2 hnd

/-- C02: the edge found for a target (through the index or by scanning) is the oldest surviving
edge to it, and none is found exactly when there is none. -/
theorem edge_lookup_oldest (ops : List GOp) (g : DGraph) (os : List GOut)
    (h : DGraph.calls {} ops = some (g, os)) (s t : Nat) :
    (∀ e, lookupOutEdge (g.obj s) t = some e →
      e ∈ (g.obj s).outE ∧ e.tgt = t ∧
      ∀ e' ∈ (g.obj s).outE, e'.tgt = t → e.id ≤ e'.id) ∧
    (lookupOutEdge (g.obj s) t = none ↔ ∀ e ∈ (g.obj s).outE, e.tgt ≠ t) := by
  obtain ⟨A, _, hr, hi⟩ := calls_rel h
  have hl : lookupOutEdge (g.obj s) t = (g.obj s).outE.find? fun e => e.tgt == t := by
    rw [lookupOutEdge_eq hr, hr.out, find?_filter_and]
  have hs : (g.obj s).outE.Pairwise fun a b => a.id < b.id := by
    rw [hr.out]; exact hi.sorted.sublist List.filter_sublist
  rw [hl]
  constructor
  · intro e he
    refine ⟨List.mem_of_find?_eq_some he, by simpa using List.find?_some he, ?_⟩
    intro e' he' ht
    obtain ⟨_, as, bs, heq, hno⟩ := List.find?_eq_some_iff_append.1 he
    rw [heq] at he' hs
    rcases List.mem_append.1 he' with h1 | h1
    · have := hno e' h1; simp [ht] at this
    · rcases List.mem_cons.1 h1 with rfl | h1
      · exact Nat.le_refl _
      · have := (List.pairwise_cons.1 (List.pairwise_append.1 hs).2.1).1 e' h1
        omega
  · rw [List.find?_eq_none]
    simp

/-- Sorting a list's elements by a key keeps their number, when every key occurs once among the
keys counted. -/
theorem sum_by_key {α : Type} (key : α → Nat) (ks : List Nat) (hk : ks.Nodup) :
    ∀ es : List α, (∀ e ∈ es, key e ∈ ks) →
      (ks.map fun k => (es.filter fun e => key e == k).length).sum = es.length := by
  intro es
  induction es with
  | nil =>
    intro _
    clear hk
    induction ks with
    | nil => rfl
    | cons k ks ih => simpa using ih (by simp)
  | cons e es ih =>
    intro h
    have hone : ∀ ks : List Nat, ks.Nodup →
        (ks.map fun k => ((e :: es).filter fun e => key e == k).length).sum =
          (ks.map fun k => (es.filter fun e => key e == k).length).sum +
            if key e ∈ ks then 1 else 0 := by
      intro ks
      induction ks with
      | nil => intro _; simp
      | cons k ks ihk =>
        intro hn
        obtain ⟨h1, h2⟩ := List.nodup_cons.1 hn
        simp only [List.map_cons, List.sum_cons, ihk h2]
        by_cases hek : key e = k
        · subst hek
          simp [List.filter_cons, h1]
          omega
        · simp [List.filter_cons, hek]
          omega
    rw [hone ks hk, ih fun x hx => h x (List.mem_cons_of_mem _ hx), if_pos (h e (by simp))]
    simp

/-- C02: looking an edge up from its target finds the same edge as looking it up from its
source, so removing an edge by looking at both ends removes one edge. -/
theorem edge_lookup_both_ends (ops : List GOp) (g : DGraph) (os : List GOut)
    (h : DGraph.calls {} ops = some (g, os)) (s t : Nat) :
    g.findEdgeFrom t s = g.findEdgeTo s t ∧ lookupOutEdge (g.obj s) t = g.findEdgeTo s t := by
  obtain ⟨A, _, hr, hi⟩ := calls_rel h
  constructor
  · unfold DGraph.findEdgeFrom DGraph.findEdgeTo
    rw [hr.inn, hr.out, find?_filter_and, find?_filter_and]
    congr 1
    funext e
    exact Bool.and_comm _ _
  · unfold DGraph.findEdgeTo
    rw [lookupOutEdge_eq hr, hr.out, find?_filter_and]

/-- C01: after any sequence of calls the edges counted at the sources, the edges counted at the
targets and the graph's own count agree. -/
theorem degrees_sum (ops : List GOp) (g : DGraph) (os : List GOut)
    (h : DGraph.calls {} ops = some (g, os)) :
    (g.nodes.map g.outDegree).sum = g.numEdges ∧ (g.nodes.map g.inDegree).sum = g.numEdges := by
  obtain ⟨A, _, hr, hi⟩ := calls_rel h
  have ho : (g.nodes.map g.outDegree).sum = A.edges.length := by
    have := sum_by_key (fun e : Edge => e.src) g.nodes (hr.nodes ▸ hi.nodup) A.edges
      fun e he => hr.nodes ▸ (hi.ends e he).1
    rw [← this]
    congr 1
    refine List.map_congr_left fun n _ => ?_
    rw [DGraph.outDegree, hr.out]
  have hn : (g.nodes.map g.inDegree).sum = A.edges.length := by
    have := sum_by_key (fun e : Edge => e.tgt) g.nodes (hr.nodes ▸ hi.nodup) A.edges
      fun e he => hr.nodes ▸ (hi.ends e he).2.1
    rw [← this]
    congr 1
    refine List.map_congr_left fun n _ => ?_
    rw [DGraph.inDegree, hr.inn]
  have hnum : g.numEdges = (g.nodes.map g.outDegree).sum := rfl
  exact ⟨hnum.symm, by rw [hn, hnum, ho]⟩

/-- C02: adding an edge that already exists changes nothing and returns the existing edge; adding
one that does not exist appends exactly one edge to both endpoints' lists. -/
theorem addEdge_idempotent (ops : List GOp) (g : DGraph) (os : List GOut)
    (h : DGraph.calls {} ops = some (g, os)) (s t : Nat) (g' : DGraph) (o : GOut)
    (hc : g.call (.addEdge s t) = some (g', o)) :
    g'.call (.addEdge s t) = some (g', o) ∧
    ((∃ e ∈ (g.obj s).outE, e.tgt = t) → g' = g) ∧
    ((∀ e ∈ (g.obj s).outE, e.tgt ≠ t) → ∃ e, o = .edge e ∧ e.src = s ∧ e.tgt = t ∧
      (∀ n, (g'.obj n).outE = if n = s then (g.obj n).outE ++ [e] else (g.obj n).outE) ∧
      (∀ n, (g'.obj n).inE = if n = t then (g.obj n).inE ++ [e] else (g.obj n).inE)) := by
  obtain ⟨A, _, hr, hi⟩ := calls_rel h
  simp only [DGraph.call] at hc
  split at hc
  case isFalse => cases hc
  rename_i hst
  simp only [Option.some.injEq, Prod.mk.injEq] at hc
  obtain ⟨rfl, rfl⟩ := hc
  have hout : ∀ e, e ∈ (g.obj s).outE ∧ e.tgt = t ↔
      e ∈ A.edges ∧ (e.src == s && e.tgt == t) = true := by
    intro e; rw [hr.out, List.mem_filter]; simp [and_assoc]
  rcases rel_addEdge hr s t with ⟨e, hf, heq⟩ | ⟨hf, heq⟩
  · refine ⟨?_, ?_, ?_⟩
    · simp only [heq, DGraph.call, hst, and_self, ↓reduceIte]
    · intro _; simp [heq]
    · intro hno
      exfalso
      have h1 := List.mem_of_find?_eq_some hf
      have h2 := List.find?_some hf
      obtain ⟨h3, h4⟩ := (hout e).2 ⟨h1, h2⟩
      exact hno e h3 h4
  · obtain ⟨hr', he⟩ := rel_addNewEdge hr s t
    refine ⟨?_, ?_, ?_⟩
    · rw [heq] at *
      have hnodes : (g.addNewEdge s t).1.nodes = g.nodes := by
        simp [DGraph.addNewEdge, DGraph.upd]
      simp only [DGraph.call, hnodes, hst, and_self, ↓reduceIte]
      rcases rel_addEdge hr' s t with ⟨e, hf', heq'⟩ | ⟨hf', _⟩
      · rw [heq']
        simp only [List.find?_append] at hf'
        rw [hf] at hf'
        simp at hf'
        simp only [he, hf']
      · exfalso
        rw [List.find?_eq_none] at hf'
        have := hf' ⟨A.nextEdge, s, t⟩ (by simp)
        simp at this
    · rintro ⟨e, h1, h2⟩
      exfalso
      obtain ⟨h3, h4⟩ := (hout e).1 ⟨h1, h2⟩
      rw [List.find?_eq_none] at hf
      exact hf e h3 h4
    · intro _
      refine ⟨⟨A.nextEdge, s, t⟩, by rw [heq, he], rfl, rfl, ?_, ?_⟩
      · intro n
        rw [heq, hr'.out, List.filter_append, hr.out]
        by_cases hn : n = s
        · subst hn; simp
        · have : (s == n) = false := by simp; exact fun h => hn h.symm
          simp [hn, List.filter_cons, this]
      · intro n
        rw [heq, hr'.inn, List.filter_append, hr.inn]
        by_cases hn : n = t
        · subst hn; simp
        · have : (t == n) = false := by simp; exact fun h => hn h.symm
          simp [hn, List.filter_cons, this]

/-- C03: removing a live node succeeds, removes it from the node list, leaves no edge from or to
it, and keeps every edge between other nodes in order. -/
theorem removeNode_exact (ops : List GOp) (g : DGraph) (os : List GOut)
    (h : DGraph.calls {} ops = some (g, os)) (n : Nat) (hn : n ∈ g.nodes) :
    ∃ g', g.call (.removeNode n) = some (g', .flag true) ∧
      g'.nodes = g.nodes.filter (fun m => m != n) ∧
      (∀ m ∈ g'.nodes, (g'.obj m).outE = (g.obj m).outE.filter (fun e => e.tgt != n)) ∧
      (∀ m ∈ g'.nodes, (g'.obj m).inE = (g.obj m).inE.filter (fun e => e.src != n)) := by
  obtain ⟨A, _, hr, hi⟩ := calls_rel h
  have := call_sim hr hi (.removeNode n)
  have hnA : n ∈ A.nodes := by rw [← hr.nodes]; exact hn
  simp only [AbsGraph.call, hnA, ↓reduceIte] at this
  obtain ⟨g', hg', hr'⟩ := this
  have hnodes : g'.nodes = g.nodes.filter (fun m => m != n) := by
    rw [hr'.nodes, hr.nodes]
    simp only
    rw [hi.nodup.erase_eq_filter]
  refine ⟨g', hg', hnodes, ?_, ?_⟩
  · intro m hm
    rw [hr'.out, hr.out, List.filter_filter, List.filter_filter]
    have hmn : m ≠ n := by rw [hnodes] at hm; simpa using (List.mem_filter.1 hm).2
    apply List.filter_congr
    intro e _
    by_cases he : e.src = m
    · simp [he, hmn]
    · simp [beq_false_of_ne he]
  · intro m hm
    rw [hr'.inn, hr.inn, List.filter_filter, List.filter_filter]
    have hmn : m ≠ n := by rw [hnodes] at hm; simpa using (List.mem_filter.1 hm).2
    apply List.filter_congr
    intro e _
    by_cases he : e.tgt = m
    · simp [he, hmn]
    · simp [beq_false_of_ne he]

/-- C02: removing an edge removes exactly the oldest edge from `s` to `t` from both lists, and
reports whether there was one. -/
theorem removeEdge_exact (ops : List GOp) (g : DGraph) (os : List GOut)
    (h : DGraph.calls {} ops = some (g, os)) (s t : Nat) (hs : s ∈ g.nodes) (ht : t ∈ g.nodes) :
    ∃ g', g.call (.removeEdge s t) =
        some (g', .flag ((g.obj s).outE.any fun e => e.tgt == t)) ∧
      (∀ n, (g'.obj n).outE =
        if n = s then (g.obj n).outE.eraseP (fun e => e.tgt == t) else (g.obj n).outE) ∧
      (∀ n, (g'.obj n).inE =
        if n = t then (g.obj n).inE.eraseP (fun e => e.src == s) else (g.obj n).inE) := by
  obtain ⟨A, _, hr, hi⟩ := calls_rel h
  obtain ⟨g', hg', hr'⟩ := rel_removeEdge hr s t
  have hany : (g.obj s).outE.any (fun e => e.tgt == t) =
      A.edges.any (fun e => e.src == s && e.tgt == t) := by
    rw [hr.out, any_filter_and]
  refine ⟨g', by simp [DGraph.call, hs, ht, hg', hany], ?_, ?_⟩
  · intro n
    rw [hr'.out, hr.out]
    by_cases hn : n = s
    · subst hn; simp only [↓reduceIte]; exact filter_eraseP_same _ _ _
    · simp only [hn, ↓reduceIte]
      apply filter_eraseP_disjoint
      intro x hx
      simp only [Bool.and_eq_true, beq_iff_eq] at hx
      simp only [beq_eq_false_iff_ne, ne_eq]
      intro hc; exact hn (hc.symm.trans hx.1)
  · intro n
    rw [hr'.inn, hr.inn]
    by_cases hn : n = t
    · subst hn; simp only [↓reduceIte]
      rw [← filter_eraseP_same]
      congr 2; funext e; exact Bool.and_comm _ _
    · simp only [hn, ↓reduceIte]
      apply filter_eraseP_disjoint
      intro x hx
      simp only [Bool.and_eq_true, beq_iff_eq] at hx
      simp only [beq_eq_false_iff_ne, ne_eq]
      intro hc; exact hn (hc.symm.trans hx.2)

/-- Non-vacuity: a history with parallel edges, a self loop, a removal of one parallel edge and
of a node. It succeeds and returns the expected values. -/
def sampleHistory : List GOp :=
  [.addNode, .addNode, .addNode, .addEdge 0 1, .addNewEdge 0 1, .addEdge 0 1, .addEdge 1 1,
   .addEdge 1 2, .addEdge 2 0, .removeEdge 0 1, .removeNode 2]

example : (DGraph.calls {} sampleHistory).map Prod.snd =
    some [.node 0, .node 1, .node 2, .edge ⟨0, 0, 1⟩, .edge ⟨1, 0, 1⟩, .edge ⟨0, 0, 1⟩,
      .edge ⟨2, 1, 1⟩, .edge ⟨3, 1, 2⟩, .edge ⟨4, 2, 0⟩, .flag true, .flag true] := by
  decide

/-- Non-vacuity: a history that crosses the index threshold (17 distinct targets) and then uses
the index. -/
def bigHistory : List GOp :=
  (List.replicate 18 GOp.addNode) ++ ((List.range 18).map fun i => GOp.addEdge 0 i) ++
    [.addNewEdge 0 3, .removeEdge 0 3, .addEdge 0 3]

example : ((DGraph.calls {} bigHistory).map fun r => (r.2.getLast?, (r.1.obj 0).index.isSome)) =
    some (some (.edge ⟨18, 0, 3⟩), true) := by
  decide +kernel

/-- The graph after the history with parallel edges. -/
def sampleEnd : DGraph := ((DGraph.calls {} sampleHistory).map Prod.fst).getD {}

theorem sample_end : DGraph.calls {} sampleHistory =
    some (sampleEnd, ((DGraph.calls {} sampleHistory).map Prod.snd).getD []) := rfl

/-- The theorems apply to it: its nodes are 0 and 1, joined by one of the parallel edges. -/
example := in_edges_mirror_out_edges _ _ _ sample_end
example := edge_lookup_oldest _ _ _ sample_end 0 1
example := edge_lookup_both_ends _ _ _ sample_end 0 1
example := degrees_sum _ _ _ sample_end
example := removeEdge_exact _ _ _ sample_end 0 1 (by decide) (by decide)
example := removeNode_exact _ _ _ sample_end 1 (by decide)
example := addEdge_idempotent _ _ _ sample_end 0 1 _ _ (rfl : sampleEnd.call (.addEdge 0 1) = some (_, .edge ⟨1, 0, 1⟩))

end Verif.Props

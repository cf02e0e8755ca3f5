import Verif.Model.Queries
import Verif.Spec.Net
import Verif.Proofs.Dfs
import Verif.Proofs.DirectedGraph

/-! Helper lemmas: netlists produced by histories are well formed; step relations. -/
set_option linter.unusedSimpArgs false
namespace Verif.Proofs
open Verif.Spec Verif.Model

/-- Well-formedness used by the query proofs. -/
structure NetWF (net : NetGraph) : Prop where
  nodup : net.g.nodes.Nodup
  out : ∀ n e, e ∈ (net.g.obj n).outE → e.src = n ∧ n ∈ net.g.nodes ∧ e.tgt ∈ net.g.nodes
  mir : ∀ n e, e ∈ (net.g.obj n).inE ↔ e ∈ (net.g.obj e.src).outE ∧ e.tgt = n

theorem net_calls_g {net net' : NetGraph} {ops : List NetOp}
    (h : NetGraph.calls net ops = some net') :
    ∃ gops os, DGraph.calls net.g gops = some (net'.g, os) := by
  induction ops generalizing net with
  | nil => simp only [NetGraph.calls, Option.some.injEq] at h; subst h; exact ⟨[], [], rfl⟩
  | cons op ops ih =>
    simp only [NetGraph.calls] at h
    cases hc : net.call op with
    | none => rw [hc] at h; cases h
    | some net1 =>
      rw [hc] at h
      obtain ⟨gops, os, hg⟩ := ih h
      cases hop : op.gop with
      | none =>
        have : net1.g = net.g := by
          cases op <;> simp [NetOp.gop] at hop <;>
            simp [NetGraph.call, NetOp.gop] at hc <;> subst hc <;> rfl
        rw [this] at hg
        exact ⟨gops, os, hg⟩
      | some gop =>
        cases hcall : net.g.call gop with
        | none => simp only [NetGraph.call, hop, hcall] at hc; cases hc
        | some r =>
          obtain ⟨g', o⟩ := r
          simp only [NetGraph.call, hop, hcall, Option.some.injEq] at hc
          have : net1.g = g' := by rw [← hc]
          subst this
          exact ⟨gop :: gops, o :: os, by simp [DGraph.calls, hcall, hg]⟩

theorem reach_call {net net' : NetGraph} {op : NetOp} (h : Reachable net)
    (hc : net.call op = some net') : Reachable net' := by
  obtain ⟨ops, ho⟩ := h
  refine ⟨ops ++ [op], ?_⟩
  have : ∀ (l : List NetOp) (n0 : NetGraph), NetGraph.calls n0 l = some net →
      NetGraph.calls n0 (l ++ [op]) = some net' := by
    intro l
    induction l with
    | nil =>
      intro n0 h0
      simp only [NetGraph.calls, Option.some.injEq] at h0
      subst h0
      simp [NetGraph.calls, hc]
    | cons x xs ih =>
      intro n0 h0
      simp only [NetGraph.calls, List.cons_append] at h0 ⊢
      cases hx : n0.call x with
      | none => rw [hx] at h0; cases h0
      | some n1 => rw [hx] at h0; exact ih n1 h0
  exact this ops {} ho

theorem reachable_rel {net : NetGraph} (h : Reachable net) :
    ∃ A, Rel net.g A ∧ AbsInv A := by
  obtain ⟨ops, h⟩ := h
  obtain ⟨gops, os, hg⟩ := net_calls_g h
  obtain ⟨A, _, hr, hi⟩ := calls_rel hg
  exact ⟨A, hr, hi⟩

theorem reachable_wf {net : NetGraph} (h : Reachable net) : NetWF net := by
  obtain ⟨A, hr, hi⟩ := reachable_rel h
  refine ⟨by rw [hr.nodes]; exact hi.nodup, ?_, ?_⟩
  · intro n e he
    rw [hr.out] at he
    obtain ⟨h1, h2⟩ := List.mem_filter.1 he
    have h3 : e.src = n := by simpa using h2
    have h4 := hi.ends e h1
    rw [hr.nodes, ← h3]
    exact ⟨rfl, h4.1, h4.2.1⟩
  · intro n e
    rw [hr.inn, hr.out]
    simp

theorem reach_trans {α : Type} {R : α → α → Prop} {a b c : α}
    (h1 : Reach R a b) (h2 : Reach R b c) : Reach R a c := by
  induction h2 with
  | refl => exact h1
  | tail _ h ih => exact ih.tail h

theorem reach_head {α : Type} {R : α → α → Prop} {a b c : α}
    (h1 : R a b) (h2 : Reach R b c) : Reach R a c :=
  reach_trans (Reach.refl.tail h1) h2

theorem reach_mono {α : Type} {R S : α → α → Prop} (hRS : ∀ a b, R a b → S a b) {a b : α}
    (h : Reach R a b) : Reach S a b := by
  induction h with
  | refl => exact Reach.refl
  | tail _ h ih => exact ih.tail (hRS _ _ h)

theorem reach_swap {α : Type} {R : α → α → Prop} {a b : α}
    (h : Reach R a b) : Reach (fun x y => R y x) b a := by
  induction h with
  | refl => exact Reach.refl
  | tail _ h ih => exact reach_head h ih

theorem reach_swap_iff {α : Type} {R : α → α → Prop} {a b : α} :
    Reach (fun x y => R y x) a b ↔ Reach R b a :=
  ⟨fun h => reach_swap h, fun h => reach_swap h⟩

theorem reach_iff {α : Type} {R S : α → α → Prop} (hRS : ∀ a b, R a b ↔ S a b) {a b : α} :
    Reach R a b ↔ Reach S a b :=
  ⟨reach_mono fun a b => (hRS a b).1, reach_mono fun a b => (hRS a b).2⟩

theorem acc_enabled {net : NetGraph} (hw : NetWF net) (a b : Nat) :
    Acc (fwdAdj net (enabledPred net)) a b ↔ Step net a b := by
  constructor
  · rintro ⟨e, he, hok, rfl⟩
    exact ⟨(hw.out a e he).2.1, e, he, rfl, by simpa [fwdAdj, enabledPred] using hok⟩
  · rintro ⟨_, e, he, rfl, hd⟩
    exact ⟨e, he, by simp [fwdAdj, enabledPred, hd], rfl⟩

theorem acc_comb {net : NetGraph} (hw : NetWF net) (a b : Nat) :
    Acc (fwdAdj net (combPred net)) a b ↔ CombStep net a b := by
  constructor
  · rintro ⟨e, he, hok, rfl⟩
    simp only [fwdAdj, combPred, Bool.and_eq_true, Bool.not_eq_true', bne_iff_ne, ne_eq] at hok
    exact ⟨⟨(hw.out a e he).2.1, e, he, rfl, hok.1⟩, hok.2⟩
  · rintro ⟨⟨_, e, he, rfl, hd⟩, hk⟩
    exact ⟨e, he, by simp [fwdAdj, combPred, hd, hk], rfl⟩

theorem acc_combBack {net : NetGraph} (hw : NetWF net) (a b : Nat) :
    Acc (bwdAdj net (combBackPred net)) b a ↔ CombBackStep net a b := by
  constructor
  · rintro ⟨e, he, hok, rfl⟩
    simp only [bwdAdj, combBackPred, Bool.and_eq_true, Bool.not_eq_true', bne_iff_ne,
      ne_eq] at hok he ⊢
    obtain ⟨h1, h2⟩ := (hw.mir b e).1 he
    exact ⟨⟨(hw.out e.src e h1).2.1, e, h1, h2, hok.1⟩, hok.2⟩
  · rintro ⟨⟨_, e, he, rfl, hd⟩, hk⟩
    have hs := (hw.out a e he).1
    subst hs
    exact ⟨e, (hw.mir _ e).2 ⟨he, rfl⟩, by simp [bwdAdj, combBackPred, hd, hk], rfl⟩

theorem closed_fwd {net : NetGraph} (hw : NetWF net) (ok : Edge → Bool) :
    Closed (fwdAdj net ok) net.g.nodes := fun n _ e he _ => (hw.out n e he).2.2

theorem closed_bwd {net : NetGraph} (hw : NetWF net) (ok : Edge → Bool) :
    Closed (bwdAdj net ok) net.g.nodes := by
  intro n _ e he _
  obtain ⟨h1, _⟩ := (hw.mir n e).1 he
  exact (hw.out e.src e h1).2.1

theorem collect_eq (evs : List (Ev Edge)) : collect evs = evs.filterMap evNode := by
  induction evs with
  | nil => rfl
  | cons ev evs ih => cases ev <;> simp [collect, evNode, List.filterMap_cons, ih]

/-! ### Parent maps and paths -/

/-- The parent map is the list of tree edges. -/
theorem parentMap_eq {net : NetGraph} {ok : Edge → Bool} {start : Nat}
    (log : List (Ev Edge)) (h : TreeEdges (fwdAdj net ok) start (log.filterMap evEdge)) :
    parentMap log = some ((log.filterMap evEdge).map fun e => (e.tgt, e.src)) := by
  induction log with
  | nil => rfl
  | cons ev evs ih =>
    cases ev with
    | visitNode n => simp [parentMap, evEdge, List.filterMap_cons] at h ⊢; rw [ih h]
    | visitedNode n => simp [parentMap, evEdge, List.filterMap_cons] at h ⊢; rw [ih h]
    | popNode => simp [parentMap, evEdge, List.filterMap_cons] at h ⊢; rw [ih h]
    | visitEdge e =>
      simp only [evEdge, List.filterMap_cons, TreeEdges] at h
      obtain ⟨_, hn, _, ht⟩ := h
      have hl : ((evs.filterMap evEdge).map fun e => (e.tgt, e.src)).lookup e.tgt = none := by
        rw [List.lookup_eq_none_iff]
        intro p hp
        obtain ⟨e', he', rfl⟩ := List.mem_map.1 hp
        simp only [bne_iff_ne, ne_eq, beq_eq_false_iff_ne]
        intro hc
        exact hn (List.mem_append_left _ (List.mem_map.2 ⟨e', he', hc.symm⟩))
      simp [parentMap, ih ht, hl, evEdge, List.filterMap_cons]

/-- The chain from a tree node to the root, root first. -/
def treePath (start : Nat) : List Edge → Nat → List Nat
  | [], v => [v]
  | e :: es, v => if v = e.tgt then treePath start es e.src ++ [v] else treePath start es v

theorem treePath_spec {net : NetGraph} (hw : NetWF net) {ok : Edge → Bool} {start : Nat}
    (es : List Edge) (h : TreeEdges (fwdAdj net ok) start es) (v : Nat)
    (hv : v ∈ es.map Edge.tgt ++ [start]) :
    SimplePath (Acc (fwdAdj net ok)) start v (treePath start es v) ∧
    (∀ x ∈ treePath start es v, x ∈ es.map Edge.tgt ++ [start]) := by
  induction es generalizing v with
  | nil =>
    simp at hv; subst hv
    exact ⟨⟨rfl, rfl, trivial, by simp [treePath]⟩, by simp [treePath]⟩
  | cons e es ih =>
    simp only [TreeEdges] at h
    obtain ⟨hok, hn, ⟨n, hnm, hen⟩, ht⟩ := h
    have hsrc : e.src = n := (hw.out n e hen).1
    by_cases hve : v = e.tgt
    · subst hve
      simp only [treePath, ↓reduceIte]
      have hs : e.src ∈ es.map Edge.tgt ++ [start] := by rw [hsrc]; exact hnm
      obtain ⟨⟨h1, h2, h3, h4⟩, h5⟩ := ih ht e.src hs
      refine ⟨⟨?_, by simp, ?_, ?_⟩, ?_⟩
      · cases hp : treePath start es e.src with
        | nil => rw [hp] at h1; cases h1
        | cons a l => rw [hp] at h1; simpa using h1
      · have hstep : Acc (fwdAdj net ok) e.src e.tgt := ⟨e, by rw [hsrc]; exact hen, hok, rfl⟩
        generalize treePath start es e.src = l at h2 h3
        clear h1 h4 h5
        induction l with
        | nil => simp [Walk]
        | cons a l ihl =>
          cases l with
          | nil =>
            simp at h2; subst h2
            exact ⟨hstep, trivial⟩
          | cons b l => exact ⟨h3.1, ihl (by simpa using h2) h3.2⟩
      · rw [List.nodup_append]
        refine ⟨h4, by simp, ?_⟩
        intro a ha b hb
        simp at hb; subst hb
        intro hc; subst hc
        exact hn (h5 _ ha)
      · intro x hx
        rcases List.mem_append.1 hx with hx | hx
        · exact List.mem_cons_of_mem _ (h5 x hx)
        · simp at hx; subst hx; simp
    · simp only [treePath, hve, ↓reduceIte]
      have hv' : v ∈ es.map Edge.tgt ++ [start] := by
        rcases List.mem_cons.1 hv with h | h
        · exact absurd h hve
        · exact h
      obtain ⟨h1, h2⟩ := ih ht v hv'
      exact ⟨h1, fun x hx => List.mem_cons_of_mem _ (h2 x hx)⟩

theorem tree_start_notin {net : NetGraph} {ok : Edge → Bool} {start : Nat} {es : List Edge}
    (ht : TreeEdges (fwdAdj net ok) start es) : start ∉ es.map Edge.tgt := by
  induction es with
  | nil => simp
  | cons e' es ih =>
    simp only [TreeEdges] at ht
    simp only [List.map_cons, List.mem_cons, not_or]
    refine ⟨?_, ih ht.2.2.2⟩
    intro hc
    have h : (fwdAdj net ok).next e' = start := hc.symm
    exact ht.2.1 (by rw [h]; simp)

theorem treePath_start (start : Nat) (es : List Edge) (hns : start ∉ es.map Edge.tgt) :
    treePath start es start = [start] := by
  induction es with
  | nil => rfl
  | cons e' es ih =>
    simp only [List.map_cons, List.mem_cons, not_or] at hns
    simp [treePath, hns.1, ih hns.2]

/-- Following parents by lookup builds the chain. -/
theorem parentLoop_tree {net : NetGraph} (hw : NetWF net) {ok : Edge → Bool} {start : Nat}
    (es pre : List Edge) (h : TreeEdges (fwdAdj net ok) start es)
    (hpre : ∀ v ∈ es.map Edge.tgt, (pre.map fun e => (e.tgt, e.src)).lookup v = none)
    (v : Nat) (hv : v ∈ es.map Edge.tgt) (fuel : Nat) (hf : es.length ≤ fuel) (acc : List Nat) :
    parentLoop ((pre ++ es).map fun e => (e.tgt, e.src)) start fuel v (v :: acc) =
      some (treePath start es v ++ acc) := by
  induction es generalizing v fuel acc pre with
  | nil => simp at hv
  | cons e es ih =>
    simp only [TreeEdges] at h
    obtain ⟨hok, hn, ⟨n, hnm, hen⟩, ht⟩ := h
    have hsrc : e.src = n := (hw.out n e hen).1
    have hpre' : ∀ v ∈ es.map Edge.tgt,
        ((pre ++ [e]).map fun e => (e.tgt, e.src)).lookup v = none := by
      intro w hw'
      have h1 := hpre w (List.mem_cons_of_mem _ hw')
      rw [List.lookup_eq_none_iff] at h1 ⊢
      intro p hp
      rw [List.map_append] at hp
      rcases List.mem_append.1 hp with hp | hp
      · exact h1 p hp
      · simp at hp; subst hp
        simp only [bne_iff_ne, ne_eq, beq_eq_false_iff_ne]
        intro hc; subst hc
        exact hn (List.mem_append_left _ hw')
    by_cases hve : v = e.tgt
    · subst hve
      simp only [treePath, ↓reduceIte]
      cases fuel with
      | zero => simp at hf
      | succ fuel =>
        have hl : ((pre ++ e :: es).map fun e => (e.tgt, e.src)).lookup e.tgt = some e.src := by
          rw [List.map_append, List.lookup_append, hpre e.tgt (by simp)]
          simp [List.lookup]
        simp only [parentLoop, hl]
        by_cases hs : e.src = start
        · simp only [hs, ↓reduceIte]
          have := treePath_start start es (tree_start_notin ht)
          rw [this]; simp
        · simp only [hs, ↓reduceIte]
          have hs' : e.src ∈ es.map Edge.tgt := by
            rw [← hsrc] at hnm
            rcases List.mem_append.1 hnm with h | h
            · exact h
            · simp at h; exact absurd h hs
          have := ih (pre ++ [e]) ht hpre' e.src hs' fuel (by simp at hf; exact hf) (e.tgt :: acc)
          rw [List.append_assoc, List.singleton_append] at this
          rw [this]; simp
    · simp only [treePath, hve, ↓reduceIte]
      have hv' : v ∈ es.map Edge.tgt := by
        rcases List.mem_cons.1 hv with h | h
        · exact absurd h hve
        · exact h
      have := ih (pre ++ [e]) ht hpre' v hv' fuel (by simp at hf; omega) acc
      rwa [List.append_assoc, List.singleton_append] at this

/-- The path query in closed form. -/
theorem findPathWith_eq {net : NetGraph} (hw : NetWF net) (ok : Edge → Bool) (s t : Nat)
    (hs : s ∈ net.g.nodes) :
    ∃ es : List Edge, TreeEdges (fwdAdj net ok) s es ∧
      (∀ v, v ∈ es.map Edge.tgt ++ [s] ↔ Reach (Acc (fwdAdj net ok)) s v) ∧
      s ∉ es.map Edge.tgt ∧
      findPathWith net ok s t =
        some (if t ∈ es.map Edge.tgt then treePath s es t else []) := by
  have hinv := dfsRun_inv (fwdAdj net ok) net.g.nodes s
  have hvis := fun v => dfsRun_visited (closed_fwd hw ok) hs v
  have htree := hinv.tree
  have htv : ((dfsRun (fwdAdj net ok) net.g.nodes s).log.filterMap evEdge).map Edge.tgt ++ [s] =
    (dfsRun (fwdAdj net ok) net.g.nodes s).visited := hinv.treeV
  refine ⟨(dfsRun (fwdAdj net ok) net.g.nodes s).log.filterMap evEdge, htree, ?_, ?_, ?_⟩
  · intro v
    rw [← hvis v, htv]
  · exact tree_start_notin htree
  · unfold findPathWith
    rw [parentMap_eq _ htree]
    simp only [buildPath]
    generalize hes : (dfsRun (fwdAdj net ok) net.g.nodes s).log.filterMap evEdge = es at *
    by_cases ht : t ∈ es.map Edge.tgt
    · have hl : ((es.map fun e => (e.tgt, e.src)).lookup t).isNone = false := by
        cases hx : (es.map fun e => (e.tgt, e.src)).lookup t with
        | some _ => rfl
        | none =>
          rw [List.lookup_eq_none_iff] at hx
          obtain ⟨e, he, rfl⟩ := List.mem_map.1 ht
          have := hx (e.tgt, e.src) (List.mem_map.2 ⟨e, he, rfl⟩)
          simp at this
      have hst : ¬ s = t := fun hc => tree_start_notin htree (hc ▸ ht)
      simp only [hl, Bool.false_eq_true, ↓reduceIte, hst, ht]
      have := parentLoop_tree hw es [] htree (by simp) t ht es.length (Nat.le_refl _) []
      simpa using this
    · have hl : ((es.map fun e => (e.tgt, e.src)).lookup t).isNone = true := by
        rw [Option.isNone_iff_eq_none, List.lookup_eq_none_iff]
        intro p hp
        obtain ⟨e, he, rfl⟩ := List.mem_map.1 hp
        simp only [bne_iff_ne, ne_eq, beq_eq_false_iff_ne]
        intro hc; subst hc
        exact ht (List.mem_map.2 ⟨e, he, rfl⟩)
      simp [hl, ht]

end Verif.Proofs

import Verif.Spec.Dependency
import Verif.Proofs.Net

/-! Helper lemmas: annotated dependencies act on one list of annotations per pair of nodes. -/
set_option linter.unusedSimpArgs false
namespace Verif.Proofs
open Verif.Spec Verif.Model

/-- The annotations of a pair, from the edge list. -/
def annotsA (A : AbsGraph) (attr : Nat → EdgeAttr) (s t : Nat) : List EdgeAttr :=
  (A.edges.filter fun e => e.src == s && e.tgt == t).map fun e => attr e.id

theorem annots_eq {net : NetGraph} {A : AbsGraph} (h : Rel net.g A) (s t : Nat) :
    annots net s t = annotsA A net.attr s t := by
  unfold annots annotsA
  rw [h.out, List.filter_filter]
  congr 2
  funext e
  exact Bool.and_comm _ _

/-- Annotations of a new edge. -/
def freshAttr (sym : Option SymRef) (b : BitRange) (k : EdgeKind) : EdgeAttr :=
  { edgeKind := k, symbol := sym, bounds := b }

/-- The effect of a request on the annotations of its pair. -/
def annStep (l : List EdgeAttr) (sym : Option SymRef) (b : BitRange) (k : EdgeKind) :
    List EdgeAttr :=
  match l with
  | [] => [freshAttr sym b k]
  | a :: as =>
    if (a.setVariable sym b).2 then { (a.setVariable sym b).1 with edgeKind := k } :: as
    else a :: as ++ [freshAttr sym b k]

theorem setVariable_fresh (sym : Option SymRef) (b : BitRange) :
    EdgeAttr.setVariable {} sym b = ({ symbol := sym, bounds := b }, true) := by
  simp [EdgeAttr.setVariable]

theorem filter_new (A : AbsGraph) (s t s' t' : Nat) :
    (A.edges ++ [(⟨A.nextEdge, s, t⟩ : Edge)]).filter (fun e => e.src == s' && e.tgt == t') =
      A.edges.filter (fun e => e.src == s' && e.tgt == t') ++
        (if s = s' ∧ t = t' then [(⟨A.nextEdge, s, t⟩ : Edge)] else []) := by
  rw [List.filter_append]
  by_cases h : s = s' ∧ t = t'
  · obtain ⟨rfl, rfl⟩ := h; simp
  · rw [if_neg h]
    have : (s == s' && t == t') = false := by
      cases hh : (s == s' && t == t')
      · rfl
      · simp at hh; exact absurd hh h
    simp [this]

/-- Adding an edge with annotations appends them to the list of the pair. -/
theorem annotsA_push {A : AbsGraph} (hi : AbsInv A) {attr attr' : Nat → EdgeAttr} {s t : Nat}
    {a : EdgeAttr} (hnew : attr' A.nextEdge = a) (hold : ∀ k, k < A.nextEdge → attr' k = attr k)
    (s' t' : Nat) :
    annotsA { A with edges := A.edges ++ [⟨A.nextEdge, s, t⟩], nextEdge := A.nextEdge + 1 } attr' s' t'
      = annotsA A attr s' t' ++ (if s = s' ∧ t = t' then [a] else []) := by
  unfold annotsA
  simp only
  rw [filter_new, List.map_append]
  congr 1
  · refine List.map_congr_left fun e he => ?_
    exact hold _ (hi.ends e (List.mem_filter.1 he).1).2.2
  · split <;> simp [hnew]

/-- Changing the annotations of the first edge of a pair changes the head of its list. -/
theorem annotsA_head {A : AbsGraph} (hi : AbsInv A) {attr attr' : Nat → EdgeAttr} {s t : Nat}
    {e : Edge} {a : EdgeAttr} (hf : A.edges.find? (fun e => e.src == s && e.tgt == t) = some e)
    (hnew : attr' e.id = a) (hold : ∀ k, k < A.nextEdge → k ≠ e.id → attr' k = attr k) :
    (∃ tl, annotsA A attr s t = attr e.id :: tl ∧ annotsA A attr' s t = a :: tl) ∧
    ∀ s' t', ¬ (s = s' ∧ t = t') → annotsA A attr' s' t' = annotsA A attr s' t' := by
  have hp := List.find?_some hf
  have hm := List.mem_of_find?_eq_some hf
  simp only [Bool.and_eq_true, beq_iff_eq] at hp
  have hid : ∀ f ∈ A.edges, f.id = e.id → f = e := by
    intro f hfm hfe
    rcases List.pairwise_iff_getElem.1 hi.sorted with hs
    obtain ⟨i, hi1, rfl⟩ := List.getElem_of_mem hfm
    obtain ⟨j, hj1, hj2⟩ := List.getElem_of_mem hm
    subst hj2
    rcases Nat.lt_trichotomy i j with h | h | h
    · have := hs i j hi1 hj1 h; omega
    · subst h; rfl
    · have := hs j i hj1 hi1 h; omega
  constructor
  · obtain ⟨as, bs, heq, has⟩ := List.find?_eq_some_iff_append.1 hf |>.2
    refine ⟨(bs.filter fun e => e.src == s && e.tgt == t).map fun e => attr e.id, ?_, ?_⟩
    all_goals
      unfold annotsA
      have h0 : as.filter (fun e => e.src == s && e.tgt == t) = [] := by
        rw [List.filter_eq_nil_iff]
        intro x hx
        have := has x hx
        simp only [Bool.not_eq_true', Bool.not_eq_true] at this ⊢; exact this
      rw [heq, List.filter_append, h0, List.nil_append, List.filter_cons_of_pos (by simp [hp]),
        List.map_cons]
    rw [hnew]
    congr 1
    refine List.map_congr_left fun f hfm => ?_
    have hfb := (List.mem_filter.1 hfm).1
    have hfA : f ∈ A.edges := by rw [heq]; simp [hfb]
    refine hold _ (hi.ends f hfA).2.2 ?_
    intro hc
    have h1 := hi.sorted
    rw [heq, List.pairwise_append] at h1
    have := (List.pairwise_cons.1 h1.2.1).1 f hfb
    omega
  · intro s' t' hne
    unfold annotsA
    refine List.map_congr_left fun f hfm => ?_
    obtain ⟨hfA, hfp⟩ := List.mem_filter.1 hfm
    simp only [Bool.and_eq_true, beq_iff_eq] at hfp
    refine hold _ (hi.ends f hfA).2.2 ?_
    intro hc
    have := hid f hfA hc
    subst this
    exact hne ⟨hp.1.symm.trans hfp.1, hp.2.symm.trans hfp.2⟩

theorem call_addEdge {net : NetGraph} {s t : Nat} (hs : s ∈ net.g.nodes) (ht : t ∈ net.g.nodes) :
    net.call (.addEdge s t) = some { net with
      g := (net.g.addEdge s t).1
      attr := fun e => if e = net.g.nextEdge then {} else net.attr e } := by
  have : net.g.call (.addEdge s t) = some ((net.g.addEdge s t).1, .edge (net.g.addEdge s t).2) := by
    simp [DGraph.call, hs, ht]
  simp only [NetGraph.call, NetOp.gop, this]

theorem call_addNewEdge {net : NetGraph} {s t : Nat} (hs : s ∈ net.g.nodes) (ht : t ∈ net.g.nodes) :
    net.call (.addNewEdge s t) = some { net with
      g := (net.g.addNewEdge s t).1
      attr := fun e => if e = net.g.nextEdge then {} else net.attr e } := by
  have : net.g.call (.addNewEdge s t) =
      some ((net.g.addNewEdge s t).1, .edge (net.g.addNewEdge s t).2) := by
    simp [DGraph.call, hs, ht]
  simp only [NetGraph.call, NetOp.gop, this]

theorem addDependency_none {net : NetGraph} {d : Dep}
    (h : ¬ (d.src ∈ net.g.nodes ∧ d.tgt ∈ net.g.nodes)) : net.addDependency d = none := by
  have : net.call (.addEdge d.src d.tgt) = none := by
    simp [NetGraph.call, NetOp.gop, DGraph.call, h]
  simp [NetGraph.addDependency, this]

/-- The effect of one request. -/
theorem addDependency_spec {net : NetGraph} (hr : Reachable net) {d : Dep}
    (hs : d.src ∈ net.g.nodes) (ht : d.tgt ∈ net.g.nodes) :
    ∃ net', net.addDependency d = some net' ∧ Reachable net' ∧ net'.data = net.data ∧
      net'.g.nodes = net.g.nodes ∧
      ∀ s t, annots net' s t = if d.src = s ∧ d.tgt = t then
        annStep (annots net s t) d.sym (depBounds (net.data d.src).bounds d.bounds) d.kind
        else annots net s t := by
  obtain ⟨A, hrel, hi⟩ := reachable_rel hr
  have hc1 := call_addEdge (net := net) hs ht
  have hr1 := reach_call hr hc1
  have hsA : d.src ∈ A.nodes := hrel.nodes ▸ hs
  have htA : d.tgt ∈ A.nodes := hrel.nodes ▸ ht
  have hpush : ∀ B : AbsGraph, AbsInv B → d.src ∈ B.nodes → d.tgt ∈ B.nodes →
      AbsInv { B with edges := B.edges ++ [⟨B.nextEdge, d.src, d.tgt⟩], nextEdge := B.nextEdge + 1 } := by
    intro B hB h1 h2
    exact absInv_call (op := .addNewEdge d.src d.tgt) (o := .edge ⟨B.nextEdge, d.src, d.tgt⟩) hB
      (by simp [AbsGraph.call, h1, h2])
  rcases rel_addEdge hrel d.src d.tgt with ⟨e, hf, heq⟩ | ⟨hf, heq⟩
  · -- an edge exists
    have hlt : e.id < A.nextEdge := (hi.ends e (List.mem_of_find?_eq_some hf)).2.2
    have hattr : ∀ k, k < A.nextEdge →
        (if k = net.g.nextEdge then ({} : EdgeAttr) else net.attr k) = net.attr k := by
      intro k hk
      have : k ≠ net.g.nextEdge := by rw [hrel.nextEdge]; omega
      simp [this]
    cases hv : ((net.attr e.id).setVariable d.sym
        (depBounds (net.data d.src).bounds d.bounds)).2 with
    | true =>
      refine ⟨{ net with
          attr := fun k => if k = e.id then
              { ((net.attr e.id).setVariable d.sym
                (depBounds (net.data d.src).bounds d.bounds)).1 with edgeKind := d.kind }
            else if k = net.g.nextEdge then {} else net.attr k }, ?_, ?_, ?_, ?_, ?_⟩
      · simp only [NetGraph.addDependency, hc1, heq, hattr _ hlt, hv, ↓reduceIte]
        simp [NetGraph.call, NetOp.gop]
      · refine reach_call hr1 (op := .setAttr e.id { ((net.attr e.id).setVariable d.sym
                (depBounds (net.data d.src).bounds d.bounds)).1 with edgeKind := d.kind }) ?_
        simp [NetGraph.call, NetOp.gop, heq]
      · rfl
      · rfl
      · intro s t
        have hh := annotsA_head hi (attr := net.attr) (attr' := fun k => if k = e.id then
              { ((net.attr e.id).setVariable d.sym
                (depBounds (net.data d.src).bounds d.bounds)).1 with edgeKind := d.kind }
            else if k = net.g.nextEdge then {} else net.attr k) hf (by simp; rfl)
            (fun k hk hne => by simp only [hne, ↓reduceIte]; exact hattr k hk)
        rw [annots_eq hrel, annots_eq (by exact hrel)]
        obtain ⟨⟨tl, h1, h2⟩, h3⟩ := hh
        split
        · rename_i hst
          obtain ⟨rfl, rfl⟩ := hst
          rw [h1]
          refine h2.trans ?_
          simp [annStep, hv]
        · rename_i hst
          exact h3 s t hst
    | false =>
      have hrel1 := (rel_addNewEdge (g := net.g) hrel d.src d.tgt)
      have hc2 := call_addNewEdge (net := { net with
          attr := fun e => if e = net.g.nextEdge then {} else net.attr e }) (s := d.src) (t := d.tgt)
          hs ht
      have hr1' : Reachable { net with
          attr := fun e => if e = net.g.nextEdge then {} else net.attr e } := by
        rw [heq] at hr1; exact hr1
      have hr2 := reach_call hr1' hc2
      refine ⟨{ net with
          g := (net.g.addNewEdge d.src d.tgt).1
          attr := fun k => if k = A.nextEdge then
              (freshAttr d.sym (depBounds (net.data d.src).bounds d.bounds) d.kind)
            else if k = net.g.nextEdge then {} else if k = net.g.nextEdge then {} else net.attr k }, ?_, ?_, ?_, ?_, ?_⟩
      · simp only [NetGraph.addDependency, hc1, heq, hattr _ hlt, hv, Bool.false_eq_true,
          ↓reduceIte, hc2, hrel1.2, ← hrel.nextEdge]
        rw [setVariable_fresh]
        simp [NetGraph.call, NetOp.gop, freshAttr]
      · refine reach_call hr2 (op := .setAttr A.nextEdge (freshAttr d.sym (depBounds (net.data d.src).bounds d.bounds) d.kind)) ?_
        simp [NetGraph.call, NetOp.gop]
      · rfl
      · simp only
        rw [hrel1.1.nodes, hrel.nodes]
      · intro s t
        rw [annots_eq hrel, annots_eq (by exact hrel1.1)]
        refine (annotsA_push hi (attr := net.attr) (a := (freshAttr d.sym (depBounds (net.data d.src).bounds d.bounds) d.kind)) (by simp) ?_ s t).trans ?_
        · intro k hk
          have h1 : k ≠ A.nextEdge := by omega
          have h2 : k ≠ net.g.nextEdge := by rw [hrel.nextEdge]; exact h1
          simp [h1, h2]
        · split
          · rename_i hst
            obtain ⟨rfl, rfl⟩ := hst
            obtain ⟨⟨tl, h1, _⟩, _⟩ := annotsA_head hi (attr := net.attr) (attr' := net.attr) hf rfl
              (fun _ _ _ => rfl)
            rw [h1]
            simp [annStep, hv]
          · simp
  · -- no edge yet
    have hrel1 := (rel_addNewEdge (g := net.g) hrel d.src d.tgt)
    refine ⟨{ net with
        g := (net.g.addNewEdge d.src d.tgt).1
        attr := fun k => if k = A.nextEdge then
            (freshAttr d.sym (depBounds (net.data d.src).bounds d.bounds) d.kind)
          else if k = net.g.nextEdge then {} else net.attr k }, ?_, ?_, ?_, ?_, ?_⟩
    · simp only [NetGraph.addDependency, hc1, heq, hrel1.2, hrel.nextEdge, ↓reduceIte]
      rw [setVariable_fresh]
      simp [NetGraph.call, NetOp.gop, freshAttr]
    · refine reach_call hr1 (op := .setAttr A.nextEdge (freshAttr d.sym (depBounds (net.data d.src).bounds d.bounds) d.kind)) ?_
      simp [NetGraph.call, NetOp.gop, heq]
    · rfl
    · simp only
      rw [hrel1.1.nodes, hrel.nodes]
    · intro s t
      rw [annots_eq hrel, annots_eq (by exact hrel1.1)]
      refine (annotsA_push hi (attr := net.attr) (a := (freshAttr d.sym (depBounds (net.data d.src).bounds d.bounds) d.kind)) (by simp) ?_ s t).trans ?_
      · intro k hk
        have h1 : k ≠ A.nextEdge := by omega
        have h2 : k ≠ net.g.nextEdge := by rw [hrel.nextEdge]; exact h1
        simp [h1, h2]
      · split
        · rename_i hst
          obtain ⟨rfl, rfl⟩ := hst
          have : annotsA A net.attr d.src d.tgt = [] := by
            unfold annotsA
            rw [List.map_eq_nil_iff, List.filter_eq_nil_iff]
            rw [List.find?_eq_none] at hf
            exact hf
          rw [this]
          simp [annStep]
        · simp

end Verif.Proofs

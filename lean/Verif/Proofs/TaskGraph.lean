import Verif.Proofs.Net
import Verif.Props.Dependency
import Verif.Proofs.Tasks

/-!
Graphs to which tasks add edges step by step. The in-edges of a node may come in another order than the edges were
made, so such a graph need not be one made by calls of the interface; what matters is how the out-edges stand.
-/
namespace Verif.Proofs
open Verif.Model Verif.Spec Verif.Props

/-- The edges from `x` to `y`. -/
def pairE (g : DGraph) (x y : Nat) : List Edge := (g.obj x).outE.filter fun e => e.tgt == y

theorem annots_pair (net : NetGraph) (x y : Nat) : annots net x y = (pairE net.g x y).map fun e => net.attr e.id := rfl

/-- The out-edges are in order. -/
structure OutOk (g : DGraph) : Prop where
  src : ∀ x, ∀ e ∈ (g.obj x).outE, e.src = x ∧ e.id < g.nextEdge
  ids : ∀ x y e e', e ∈ (g.obj x).outE → e' ∈ (g.obj y).outE → e.id = e'.id → e = e'
  nodup : ∀ x, (g.obj x).outE.Nodup
  idx : ∀ x ix, (g.obj x).index = some ix → ∀ t, ix t = (g.obj x).outE.find? fun e => e.tgt == t
  fresh : ∀ x, g.nextNode ≤ x → (g.obj x).outE = []

theorem OutOk.look {g : DGraph} (h : OutOk g) (x t : Nat) : lookupOutEdge (g.obj x) t = (pairE g x t).head? := by
  unfold lookupOutEdge pairE
  rw [List.head?_filter]
  split
  · rename_i ix hix
    exact h.idx x ix hix t
  · rfl

theorem pair_mem {g : DGraph} {x y : Nat} {e : Edge} : e ∈ pairE g x y ↔ e ∈ (g.obj x).outE ∧ e.tgt = y := by
  unfold pairE
  rw [List.mem_filter]
  simp

theorem OutOk.of_reach {net : NetGraph} (h : Reachable net) : OutOk net.g := by
  obtain ⟨A, hrel, hi⟩ := reachable_rel h
  have hids : ∀ e ∈ A.edges, ∀ e' ∈ A.edges, e.id = e'.id → e = e' := by
    intro e he e' he' hid
    obtain ⟨i, hi1, rfl⟩ := List.getElem_of_mem he
    obtain ⟨j, hj1, rfl⟩ := List.getElem_of_mem he'
    have := List.pairwise_iff_getElem.1 hi.sorted
    rcases Nat.lt_trichotomy i j with hlt | heq | hgt
    · have := this i j hi1 hj1 hlt; omega
    · subst heq; rfl
    · have := this j i hj1 hi1 hgt; omega
  have hout : ∀ x, ∀ e ∈ (net.g.obj x).outE, e ∈ A.edges ∧ e.src = x := by
    intro x e he
    rw [hrel.out, List.mem_filter] at he
    exact ⟨he.1, by simpa using he.2⟩
  refine ⟨?_, ?_, ?_, hrel.idx, ?_⟩
  · intro x e he
    obtain ⟨h1, h2⟩ := hout x e he
    exact ⟨h2, by rw [hrel.nextEdge]; exact (hi.ends e h1).2.2⟩
  · intro x y e e' he he' hid
    exact hids e (hout x e he).1 e' (hout y e' he').1 hid
  · intro x
    rw [hrel.out]
    refine List.Pairwise.imp (R := fun a b : Edge => a.id < b.id) ?_ (hi.sorted.sublist List.filter_sublist)
    rintro a b hab rfl
    omega
  · intro x hx
    rw [List.eq_nil_iff_forall_not_mem]
    intro e he
    obtain ⟨h1, h2⟩ := hout x e he
    have := hi.fresh _ (hi.ends e h1).1
    rw [hrel.nextNode] at hx
    omega

/-- A graph with the same out-edges. -/
theorem OutOk.same {g g' : DGraph} (h : OutOk g) (ho : ∀ x, (g'.obj x).outE = (g.obj x).outE)
    (hi : ∀ x, (g'.obj x).index = (g.obj x).index) (he : g'.nextEdge = g.nextEdge)
    (hn : g.nextNode ≤ g'.nextNode) : OutOk g' := by
  refine ⟨?_, ?_, ?_, ?_, ?_⟩
  · intro x e; rw [ho, he]; exact h.src x e
  · intro x y e e'; rw [ho, ho]; exact h.ids x y e e'
  · intro x; rw [ho]; exact h.nodup x
  · intro x ix; rw [hi, ho]; exact h.idx x ix
  · intro x hx; rw [ho]; exact h.fresh x (by omega)

theorem pair_same {g g' : DGraph} (ho : ∀ x, (g'.obj x).outE = (g.obj x).outE) (x y : Nat) :
    pairE g' x y = pairE g x y := by
  unfold pairE
  rw [ho]

/-- A new edge stands last among the out-edges. -/
def pushG (g : DGraph) (s t : Nat) : DGraph :=
  { g.upd s (fun n => pushOut n ⟨g.nextEdge, s, t⟩) with nextEdge := g.nextEdge + 1 }

theorem pushG_out (g : DGraph) (s t x : Nat) :
    ((pushG g s t).obj x).outE = if x = s then (g.obj s).outE ++ [⟨g.nextEdge, s, t⟩] else (g.obj x).outE := by
  unfold pushG
  simp only [upd_obj]
  split
  · rfl
  · rfl

theorem OutOk.push {g : DGraph} (h : OutOk g) {s t : Nat} (hs : s < g.nextNode) : OutOk (pushG g s t) := by
  have hmem : ∀ x e, e ∈ ((pushG g s t).obj x).outE → e ∈ (g.obj x).outE ∨ (x = s ∧ e = ⟨g.nextEdge, s, t⟩) := by
    intro x e he
    rw [pushG_out] at he
    split at he
    · subst_vars
      rcases List.mem_append.1 he with he | he
      · exact .inl he
      · exact .inr ⟨rfl, List.mem_singleton.1 he⟩
    · exact .inl he
  refine ⟨?_, ?_, ?_, ?_, ?_⟩
  · intro x e he
    show e.src = x ∧ e.id < g.nextEdge + 1
    rcases hmem x e he with he | ⟨rfl, rfl⟩
    · have := h.src x e he
      exact ⟨this.1, by omega⟩
    · exact ⟨rfl, by simp⟩
  · intro x y e e' he he' hid
    rcases hmem x e he with h1 | ⟨_, h1⟩
    · rcases hmem y e' he' with h2 | ⟨_, h2⟩
      · exact h.ids x y e e' h1 h2 hid
      · have := (h.src x e h1).2
        rw [h2] at hid
        dsimp only at hid; omega
    · rcases hmem y e' he' with h2 | ⟨_, h2⟩
      · have := (h.src y e' h2).2
        rw [h1] at hid
        dsimp only at hid; omega
      · rw [h1, h2]
  · intro x
    rw [pushG_out]
    split
    · refine List.nodup_append.2 ⟨h.nodup s, by simp, fun a ha b hb => ?_⟩
      rw [List.mem_singleton.1 hb]
      rintro rfl
      have := (h.src s _ ha).2
      dsimp only at this; omega
    · exact h.nodup x
  · intro x ix hix k
    rw [pushG_out]
    unfold pushG at hix
    simp only [upd_obj] at hix
    split
    · rename_i hx
      subst hx
      rw [if_pos rfl] at hix
      unfold pushOut at hix
      simp only at hix
      split at hix
      · rename_i ix' hix'
        cases hix
        exact tryEmplace_find ix' (g.obj x).outE ⟨g.nextEdge, x, t⟩ (h.idx x ix' hix') k
      · split at hix
        · cases hix
          exact buildIndex_find _ k
        · cases hix
    · rename_i hx
      rw [if_neg hx] at hix
      exact h.idx x ix hix k
  · intro x hx
    have hx : g.nextNode ≤ x := hx
    rw [pushG_out, if_neg (by omega)]
    exact h.fresh x hx

theorem pair_push (g : DGraph) (s t x y : Nat) :
    pairE (pushG g s t) x y = pairE g x y ++ if s = x ∧ t = y then [⟨g.nextEdge, s, t⟩] else [] := by
  unfold pairE
  rw [pushG_out]
  by_cases hx : x = s
  · subst hx
    rw [if_pos rfl, List.filter_append]
    by_cases hy : t = y
    · subst hy; simp
    · have : (t == y) = false := by simpa using hy
      simp [hy, this]
  · rw [if_neg hx, if_neg (fun h => hx h.1.symm), List.append_nil]

/-- The annotations after a new edge. -/
theorem annots_push {net net' : NetGraph} (h : OutOk net.g) {s t : Nat}
    (hg : ∀ x y, pairE net'.g x y = pairE (pushG net.g s t) x y)
    (ha : net'.attr = fun e => if e = net.g.nextEdge then {} else net.attr e) (x y : Nat) :
    annots net' x y = annots net x y ++ if s = x ∧ t = y then [({} : EdgeAttr)] else [] := by
  rw [annots_pair, annots_pair, hg, pair_push, List.map_append, ha]
  congr 1
  · refine List.map_congr_left fun e he => ?_
    have := (h.src x e (pair_mem.1 he).1).2
    simp only
    rw [if_neg (by omega)]
  · split
    · simp
    · rfl

/-- Edges of a graph in order keep their annotations when those of the next address are cleared. -/
theorem annots_clear {net net' : NetGraph} (h : OutOk net.g) (hg : ∀ x y, pairE net'.g x y = pairE net.g x y)
    (ha : net'.attr = fun e => if e = net.g.nextEdge then {} else net.attr e) (x y : Nat) :
    annots net' x y = annots net x y := by
  rw [annots_pair, annots_pair, hg, ha]
  refine List.map_congr_left fun e he => ?_
  have := (h.src x e (pair_mem.1 he).1).2
  simp only
  rw [if_neg (by omega)]

/-- The annotations of other pairs stay when those of an edge are written. -/
theorem annots_other {net net' : NetGraph} (h : OutOk net.g) {s t : Nat} {e : Edge} {a : EdgeAttr}
    (he : e ∈ pairE net.g s t) (hg : net'.g = net.g)
    (ha : net'.attr = fun k => if k = e.id then a else net.attr k) {x y : Nat} (hne : ¬ (s = x ∧ t = y)) :
    annots net' x y = annots net x y := by
  rw [annots_pair, annots_pair, hg, ha]
  refine List.map_congr_left fun e' he' => ?_
  simp only
  rw [if_neg]
  intro hid
  obtain ⟨h1, h2⟩ := pair_mem.1 he
  obtain ⟨h3, h4⟩ := pair_mem.1 he'
  have := h.ids x s e' e h3 h1 hid
  subst this
  exact hne ⟨(h.src s e' h1).1.symm.trans (h.src x e' h3).1, h2.symm.trans h4⟩

theorem pair_nodup {g : DGraph} (h : OutOk g) (x y : Nat) : (pairE g x y).Nodup := (h.nodup x).filter _

theorem map_keep {net : NetGraph} (h : OutOk net.g) {s t : Nat} {e : Edge} {a : EdgeAttr} {l : List Edge}
    (he : e ∈ pairE net.g s t) (hl : ∀ e' ∈ l, e' ∈ pairE net.g s t ∧ e' ≠ e) :
    l.map (fun e' => if e'.id = e.id then a else net.attr e'.id) = l.map fun e' => net.attr e'.id := by
  refine List.map_congr_left fun e' he' => ?_
  rw [if_neg]
  intro hid
  exact (hl e' he').2 (h.ids s s e' e (pair_mem.1 (hl e' he').1).1 (pair_mem.1 he).1 hid)

/-- The first edge of the pair gets new annotations. -/
theorem annots_first {net net' : NetGraph} (h : OutOk net.g) {s t : Nat} {e : Edge} {rest : List Edge} {a : EdgeAttr}
    (he : pairE net.g s t = e :: rest) (hg : net'.g = net.g)
    (ha : net'.attr = fun k => if k = e.id then a else net.attr k) :
    annots net s t = net.attr e.id :: rest.map (fun e' => net.attr e'.id) ∧
      annots net' s t = a :: rest.map fun e' => net.attr e'.id := by
  have hn := pair_nodup h s t
  rw [he, List.nodup_cons] at hn
  refine ⟨by rw [annots_pair, he]; rfl, ?_⟩
  rw [annots_pair, hg, he, ha, List.map_cons]
  simp only [if_pos]
  congr 1
  refine map_keep h (by rw [he]; exact List.mem_cons_self) fun e' he' => ⟨by rw [he]; exact List.mem_cons_of_mem _ he', ?_⟩
  rintro rfl
  exact hn.1 he'

/-- The last edge of the pair gets new annotations. -/
theorem annots_last {net net' : NetGraph} (h : OutOk net.g) {s t : Nat} {e : Edge} {init : List Edge} {a : EdgeAttr}
    (he : pairE net.g s t = init ++ [e]) (hg : net'.g = net.g)
    (ha : net'.attr = fun k => if k = e.id then a else net.attr k) :
    annots net s t = init.map (fun e' => net.attr e'.id) ++ [net.attr e.id] ∧
      annots net' s t = init.map (fun e' => net.attr e'.id) ++ [a] := by
  have hn := pair_nodup h s t
  rw [he] at hn
  have hn := (List.nodup_append.1 hn).2.2
  refine ⟨by rw [annots_pair, he, List.map_append]; rfl, ?_⟩
  rw [annots_pair, hg, he, ha, List.map_append]
  simp only [List.map_cons, List.map_nil, if_pos]
  congr 1
  refine map_keep h (by rw [he]; simp) fun e' he' => ⟨by rw [he]; exact List.mem_append_left _ he', ?_⟩
  exact hn e' he' e (by simp)

/-! ### Whole calls on such a graph -/

theorem addNewEdge_out {g : DGraph} (h : OutOk g) {s t : Nat} (hs : s < g.nextNode) :
    OutOk (g.addNewEdge s t).1 ∧ ∀ x y, pairE (g.addNewEdge s t).1 x y = pairE (pushG g s t) x y := by
  have ho : ∀ x, ((g.addNewEdge s t).1.obj x).outE = ((pushG g s t).obj x).outE := by
    intro x
    unfold DGraph.addNewEdge pushG
    simp only [upd_obj]
    repeat' split
    all_goals (subst_vars; first | rfl | contradiction)
  have hi : ∀ x, ((g.addNewEdge s t).1.obj x).index = ((pushG g s t).obj x).index := by
    intro x
    unfold DGraph.addNewEdge pushG
    simp only [upd_obj]
    repeat' split
    all_goals (subst_vars; first | rfl | contradiction)
  exact ⟨(h.push hs).same ho hi rfl (Nat.le_refl _), pair_same ho⟩

/-- The effect of one request on such a graph. -/
theorem addDependency_out {net : NetGraph} (h : OutOk net.g) {d : Dep} (hs : d.src ∈ net.g.nodes)
    (ht : d.tgt ∈ net.g.nodes) (hlt : ∀ n ∈ net.g.nodes, n < net.g.nextNode) :
    ∃ net', net.addDependency d = some net' ∧ OutOk net'.g ∧ net'.data = net.data ∧ net'.g.nodes = net.g.nodes ∧
      net'.g.nextNode = net.g.nextNode ∧ ∀ s t, annots net' s t = if d.src = s ∧ d.tgt = t then
        annStep (annots net s t) d.sym (depBounds (net.data d.src).bounds d.bounds) d.kind
        else annots net s t := by
  have hc1 := call_addEdge (net := net) hs ht
  have hne : ∀ e : Edge, e ∈ pairE net.g d.src d.tgt → e.id ≠ net.g.nextEdge := by
    intro e he
    have := (h.src _ e (pair_mem.1 he).1).2
    omega
  have hl := h.look d.src d.tgt
  cases hp : pairE net.g d.src d.tgt with
  | nil =>
    rw [hp] at hl
    have hadd : net.g.addEdge d.src d.tgt = net.g.addNewEdge d.src d.tgt := by
      unfold DGraph.addEdge; rw [hl]; rfl
    obtain ⟨o1, o2⟩ := addNewEdge_out h (s := d.src) (t := d.tgt) (hlt _ hs)
    have hann := fun x y => annots_push (net := net) (s := d.src) (t := d.tgt)
      (net' := { net with
        g := (net.g.addNewEdge d.src d.tgt).1
        attr := fun e => if e = net.g.nextEdge then {} else net.attr e }) h o2 rfl x y
    refine ⟨{ net with
        g := (net.g.addNewEdge d.src d.tgt).1
        attr := fun k => if k = net.g.nextEdge then freshAttr d.sym (depBounds (net.data d.src).bounds d.bounds) d.kind
          else if k = net.g.nextEdge then {} else net.attr k }, ?_, o1, rfl, rfl, rfl, ?_⟩
    · simp only [NetGraph.addDependency, hc1, hadd]
      rw [show (net.g.addNewEdge d.src d.tgt).2.id = net.g.nextEdge from rfl]
      simp only [if_pos, setVariable_fresh]
      rfl
    · intro x y
      have hpe : pairE (net.g.addNewEdge d.src d.tgt).1 d.src d.tgt = [] ++ [⟨net.g.nextEdge, d.src, d.tgt⟩] := by
        rw [o2, pair_push, hp]; simp
      split
      · rename_i hxy
        obtain ⟨rfl, rfl⟩ := hxy
        have := annots_last (net := { net with
            g := (net.g.addNewEdge d.src d.tgt).1
            attr := fun e => if e = net.g.nextEdge then {} else net.attr e })
          (net' := { net with
            g := (net.g.addNewEdge d.src d.tgt).1
            attr := fun k => if k = net.g.nextEdge then
                freshAttr d.sym (depBounds (net.data d.src).bounds d.bounds) d.kind
              else if k = net.g.nextEdge then {} else net.attr k }) o1 hpe rfl rfl
        rw [this.2, annots_pair net, hp]
        rfl
      · rename_i hxy
        exact Eq.trans (annots_other (net := { net with
            g := (net.g.addNewEdge d.src d.tgt).1
            attr := fun e => if e = net.g.nextEdge then {} else net.attr e }) o1
            (e := ⟨net.g.nextEdge, d.src, d.tgt⟩) (by rw [hpe]; exact List.mem_singleton.2 rfl) (by rfl) (by rfl) hxy)
          ((hann x y).trans (by rw [if_neg hxy, List.append_nil]))
  | cons e rest =>
    rw [hp] at hl
    have hadd : net.g.addEdge d.src d.tgt = (net.g, e) := by
      unfold DGraph.addEdge; rw [hl]; rfl
    have hide := hne e (by rw [hp]; exact List.mem_cons_self)
    rw [hadd] at hc1
    have hcl := fun x y => annots_clear (net := net) (net' := { net with
        g := net.g
        attr := fun e => if e = net.g.nextEdge then {} else net.attr e }) h (fun _ _ => rfl) rfl x y
    have h1 : annots net d.src d.tgt = net.attr e.id :: rest.map fun e' => net.attr e'.id := by
      rw [annots_pair, hp]; rfl
    cases hv : ((net.attr e.id).setVariable d.sym (depBounds (net.data d.src).bounds d.bounds)).2 with
    | true =>
      refine ⟨{ net with
          attr := fun k => if k = e.id then
              { ((net.attr e.id).setVariable d.sym
                (depBounds (net.data d.src).bounds d.bounds)).1 with edgeKind := d.kind }
            else if k = net.g.nextEdge then {} else net.attr k }, ?_, h, rfl, rfl, rfl, ?_⟩
      · simp only [NetGraph.addDependency, hc1, hadd]
        simp only [if_neg hide, hv, if_pos]
        simp [NetGraph.call, NetOp.gop]
      · intro x y
        split
        · rename_i hxy
          obtain ⟨rfl, rfl⟩ := hxy
          have := annots_first (net := { net with
              g := net.g
              attr := fun e => if e = net.g.nextEdge then {} else net.attr e })
            (net' := { net with
              attr := fun k => if k = e.id then
                  { ((net.attr e.id).setVariable d.sym
                    (depBounds (net.data d.src).bounds d.bounds)).1 with edgeKind := d.kind }
                else if k = net.g.nextEdge then {} else net.attr k }) h hp rfl rfl
          rw [this.2]
          have h2 := this.1
          rw [hcl, h1] at h2
          rw [h1, annStep, if_pos hv]
          exact congrArg _ (List.cons.inj h2).2.symm
        · rename_i hxy
          exact Eq.trans (annots_other (net := { net with
              g := net.g
              attr := fun e => if e = net.g.nextEdge then {} else net.attr e }) h
            (by show e ∈ pairE net.g d.src d.tgt; rw [hp]; exact List.mem_cons_self) (by rfl) (by rfl) hxy) (hcl _ _)
    | false =>
      obtain ⟨o1, o2⟩ := addNewEdge_out h (s := d.src) (t := d.tgt) (hlt _ hs)
      have hc2 := call_addNewEdge (net := { net with
        attr := fun e => if e = net.g.nextEdge then {} else net.attr e }) hs ht
      have hann := fun x y => annots_push (net := { net with
          attr := fun e => if e = net.g.nextEdge then {} else net.attr e }) (s := d.src) (t := d.tgt)
        (net' := { net with
          g := (net.g.addNewEdge d.src d.tgt).1
          attr := fun e => if e = net.g.nextEdge then {} else if e = net.g.nextEdge then {} else net.attr e })
          h o2 rfl x y
      have hpe : pairE (net.g.addNewEdge d.src d.tgt).1 d.src d.tgt =
          (e :: rest) ++ [⟨net.g.nextEdge, d.src, d.tgt⟩] := by
        rw [o2, pair_push, hp, if_pos ⟨rfl, rfl⟩]
      refine ⟨{ net with
          g := (net.g.addNewEdge d.src d.tgt).1
          attr := fun k => if k = net.g.nextEdge then
              freshAttr d.sym (depBounds (net.data d.src).bounds d.bounds) d.kind
            else if k = net.g.nextEdge then {} else if k = net.g.nextEdge then {} else net.attr k },
        ?_, o1, rfl, rfl, rfl, ?_⟩
      · simp only [NetGraph.addDependency, hc1, hadd]
        simp only [if_neg hide, hv, Bool.false_eq_true, if_false]
        rw [hc2]
        simp only
        rw [show (net.g.addNewEdge d.src d.tgt).2.id = net.g.nextEdge from rfl]
        simp only [if_pos, setVariable_fresh]
        rfl
      · intro x y
        split
        · rename_i hxy
          obtain ⟨rfl, rfl⟩ := hxy
          have := annots_last (net := { net with
              g := (net.g.addNewEdge d.src d.tgt).1
              attr := fun e => if e = net.g.nextEdge then {} else if e = net.g.nextEdge then {} else net.attr e })
            (net' := { net with
              g := (net.g.addNewEdge d.src d.tgt).1
              attr := fun k => if k = net.g.nextEdge then
                  freshAttr d.sym (depBounds (net.data d.src).bounds d.bounds) d.kind
                else if k = net.g.nextEdge then {} else if k = net.g.nextEdge then {} else net.attr k })
              o1 hpe rfl rfl
          rw [this.2]
          have h2 := this.1
          rw [hann, if_pos ⟨rfl, rfl⟩] at h2
          have h3 := (List.append_inj' h2 rfl).1
          rw [← h3, show annots { net with attr := fun e => if e = net.g.nextEdge then {} else net.attr e }
            d.src d.tgt = annots net d.src d.tgt from hcl _ _, h1, annStep, if_neg (by rw [hv]; simp)]
        · rename_i hxy
          refine Eq.trans (annots_other (net := { net with
              g := (net.g.addNewEdge d.src d.tgt).1
              attr := fun e => if e = net.g.nextEdge then {} else if e = net.g.nextEdge then {} else net.attr e }) o1
              (e := ⟨net.g.nextEdge, d.src, d.tgt⟩) (by rw [hpe]; simp) (by rfl) (by rfl) hxy) ((hann x y).trans ?_)
          rw [if_neg hxy, List.append_nil]
          exact hcl _ _

/-- The effect of several requests on such a graph. -/
theorem addDependencies_out {ds : List Dep} : ∀ {net : NetGraph}, OutOk net.g →
    (∀ n ∈ net.g.nodes, n < net.g.nextNode) → (∀ d ∈ ds, d.src ∈ net.g.nodes ∧ d.tgt ∈ net.g.nodes) →
    ∃ net', net.addDependencies ds = some net' ∧ net'.data = net.data ∧ net'.g.nodes = net.g.nodes ∧
      ∀ s t, annots net' s t = annFold net.data (annots net s t) (reqs ds s t) := by
  induction ds with
  | nil => intro net _ _ _; exact ⟨net, rfl, rfl, rfl, fun _ _ => rfl⟩
  | cons d ds ih =>
    intro net h hlt hn
    obtain ⟨h1, h2⟩ := hn d List.mem_cons_self
    obtain ⟨n1, e1, r1, d1, g1, x1, a1⟩ := addDependency_out h h1 h2 hlt
    obtain ⟨n2, e2, d2, g2, a2⟩ := ih r1 (by rw [g1, x1]; exact hlt) (fun x hx => by
      rw [g1]; exact hn x (List.mem_cons_of_mem _ hx))
    refine ⟨n2, by simp [NetGraph.addDependencies, e1, e2], d2.trans d1, g2.trans g1, ?_⟩
    intro s t
    rw [a2, a1, d1]
    by_cases hc : d.src = s ∧ d.tgt = t
    · have : (d.src == s && d.tgt == t) = true := by simp [hc.1, hc.2]
      rw [if_pos hc, reqs, reqs, List.filter_cons, if_pos this]
      rfl
    · have : ¬ (d.src == s && d.tgt == t) = true := by simpa using hc
      rw [if_neg hc, reqs, reqs, List.filter_cons, if_neg this]

end Verif.Proofs

import Verif.Proofs.DataflowBase

/-! Helper lemmas: properties of all annotated edges under the operations of a build. -/
namespace Verif.Proofs
open Verif.Spec Verif.Model Verif.Props

/-- What is known of an edge: it has no symbol, it carries a bit, it has a clocking kind. -/
inductive Ask where
  | plain
  | bit (x : Str × Int)
  | clock (k : EdgeKind)

/-- Every edge is enabled and satisfies `J`, which is given the data of its ends. -/
def Just (J : Ask → NodeData → NodeData → Prop) (net : NetGraph) : Prop :=
  ∀ s t, ∀ a ∈ annots net s t, a.disabled = false ∧
    (a.edgeKind ≠ .none → J (.clock a.edgeKind) (net.data s) (net.data t)) ∧ match a.symbol with
    | none => J .plain (net.data s) (net.data t)
    | some r => ∀ i, InRng a.bounds i → J (.bit (r.path, i)) (net.data s) (net.data t)

/-- What a request asks for satisfies `J`. -/
def DepJust (J : Ask → NodeData → NodeData → Prop) (net : NetGraph) (d : Dep) : Prop :=
  ∃ r, d.sym = some r ∧ (d.kind ≠ .none → J (.clock d.kind) (net.data d.src) (net.data d.tgt)) ∧ ∀ i, InRng (depBounds (net.data d.src).bounds d.bounds) i →
    J (.bit (r.path, i)) (net.data d.src) (net.data d.tgt)

theorem inRng_dep {nb : Option BitRange} {b : BitRange} {i : Int} (h : InRng (depBounds nb b) i) :
    InRng b i := ((inRng_depBounds nb b i).1 h).1

theorem annStep_each {P : EdgeAttr → Prop} {l : List EdgeAttr} {r : SymRef} {b : BitRange} {k : EdgeKind}
    (hl : ∀ a ∈ l, P a) (hn : ∀ a : EdgeAttr, a.symbol = some r → a.bounds = b → a.edgeKind = k →
      (a.disabled = false ∨ ∃ c ∈ l, a.disabled = c.disabled) → P a)
    (hu : ∀ a ∈ l, ∀ q, a.symbol = some q → q.path = r.path → a.bounds.contiguous b = true →
      P { a with bounds := a.bounds.unionWith b, edgeKind := k }) :
    ∀ a ∈ annStep l (some r) b k, P a := by
  intro a ha
  unfold annStep at ha
  split at ha
  · simp only [List.mem_singleton] at ha
    subst ha
    exact hn _ rfl rfl rfl (.inl rfl)
  · rename_i c cs
    rcases setVariable_cases c (some r) b with ⟨r0, q0, h1, h2, h3, ⟨hc, h4⟩ | h4⟩ | ⟨_, h4⟩
    · rw [h4] at ha
      simp only [↓reduceIte, List.mem_cons] at ha
      rcases ha with rfl | ha
      · cases h2
        exact hu c List.mem_cons_self r0 h1 h3 hc
      · exact hl a (List.mem_cons_of_mem _ ha)
    · rw [h4] at ha
      simp only [Bool.false_eq_true, ↓reduceIte, List.mem_append, List.mem_singleton] at ha
      rcases ha with ha | rfl
      · exact hl a ha
      · exact hn _ rfl rfl rfl (.inl rfl)
    · rw [h4] at ha
      simp only [↓reduceIte, List.mem_cons] at ha
      rcases ha with rfl | ha
      · exact hn _ rfl rfl rfl (.inr ⟨c, List.mem_cons_self, rfl⟩)
      · exact hl a (List.mem_cons_of_mem _ ha)

theorem just_dep {J : Ask → NodeData → NodeData → Prop} {net net' : NetGraph} {d : Dep}
    (hr : Reachable net) (hJ : Just J net) (hd : DepJust J net d) (h : net.addDependency d = some net') :
    Reachable net' ∧ Just J net' ∧ net'.data = net.data ∧ net'.g.nodes = net.g.nodes ∧
      d.src ∈ net.g.nodes ∧ d.tgt ∈ net.g.nodes := by
  by_cases hn : d.src ∈ net.g.nodes ∧ d.tgt ∈ net.g.nodes
  · obtain ⟨n1, e1, r1, d1, g1, a1⟩ := addDependency_spec hr hn.1 hn.2
    rw [h] at e1; cases e1
    refine ⟨r1, ?_, d1, g1, hn.1, hn.2⟩
    obtain ⟨r, hs, hk, hb⟩ := hd
    intro s t
    rw [a1, d1]
    split
    · rename_i hst
      obtain ⟨rfl, rfl⟩ := hst
      rw [hs]
      refine annStep_each (hJ d.src d.tgt) ?_ ?_
      · intro a h1 h2 h3 h4
        refine ⟨?_, by rw [h3]; exact hk, by rw [h1, h2]; exact hb⟩
        rcases h4 with h4 | ⟨c, hc, h4⟩
        · exact h4
        · rw [h4]; exact (hJ d.src d.tgt c hc).1
      · intro a ha q h1 h2 h3
        obtain ⟨h0, _, h4⟩ := hJ d.src d.tgt a ha
        refine ⟨h0, hk, ?_⟩
        simp only [h1] at h4 ⊢
        intro i hi
        rcases (inRng_union h3 i).1 hi with h5 | h5
        · exact h4 i h5
        · rw [h2]; exact hb i h5
    · exact hJ s t
  · rw [addDependency_none hn] at h; cases h

theorem just_deps {J : Ask → NodeData → NodeData → Prop} (ds : List Dep) :
    ∀ {net net' : NetGraph}, Reachable net → Just J net → (∀ d ∈ ds, DepJust J net d) →
      net.addDependencies ds = some net' →
      Reachable net' ∧ Just J net' ∧ net'.data = net.data ∧ net'.g.nodes = net.g.nodes := by
  induction ds with
  | nil => intro net net' hr hJ _ h; cases h; exact ⟨hr, hJ, rfl, rfl⟩
  | cons d ds ih =>
    intro net net' hr hJ hd h
    simp only [NetGraph.addDependencies] at h
    split at h
    · cases h
    · rename_i n1 e1
      obtain ⟨a1, a2, a3, a4, _⟩ := just_dep hr hJ (hd d List.mem_cons_self) e1
      obtain ⟨b1, b2, b3, b4⟩ := ih a1 a2 (fun x hx => by
        have := hd x (List.mem_cons_of_mem _ hx)
        unfold DepJust at this ⊢
        rw [a3]
        exact this) h
      exact ⟨b1, b2, b3.trans a3, b4.trans a4⟩

theorem call_addEdge_mem {net net' : NetGraph} {a b : Nat} (h : net.call (.addEdge a b) = some net') :
    a ∈ net.g.nodes ∧ b ∈ net.g.nodes := by
  refine Classical.byContradiction fun hn => ?_
  have : net.call (.addEdge a b) = none := by
    simp [NetGraph.call, NetOp.gop, DGraph.call, hn]
  rw [this] at h; cases h

theorem just_addEdge {J : Ask → NodeData → NodeData → Prop} {net net' : NetGraph} {a b : Nat}
    (hr : Reachable net) (hJ : Just J net) (hj : J .plain (net.data a) (net.data b))
    (h : net.call (.addEdge a b) = some net') :
    Reachable net' ∧ Just J net' ∧ net'.data = net.data ∧ net'.g.nodes = net.g.nodes := by
  obtain ⟨ha, hb⟩ := call_addEdge_mem h
  obtain ⟨n1, e1, r1, d1, g1, a1⟩ := addEdge_spec hr ha hb
  rw [h] at e1; cases e1
  refine ⟨r1, ?_, d1, g1⟩
  intro s t
  rw [a1, d1]
  split
  · rename_i hst
    obtain ⟨rfl, rfl, _⟩ := hst
    intro x hx
    simp only [List.mem_singleton] at hx
    subst hx
    exact ⟨rfl, fun h => absurd rfl h, hj⟩
  · exact hJ s t

theorem just_addNode {J : Ask → NodeData → NodeData → Prop} {net net' : NetGraph} {d : NodeData}
    (hr : Reachable net) (hJ : Just J net) (h : net.call (.addNode d) = some net') :
    Reachable net' ∧ Just J net' ∧ NetLe net net' ∧ net'.data net.g.nextNode = d ∧
      net'.g.nodes = net.g.nodes ++ [net.g.nextNode] := by
  obtain ⟨n1, e1, r1, g1, f1, d1, a1, a2⟩ := newNode_spec hr d
  obtain ⟨n2, e2, _, l2, _⟩ := addNode_le hr d
  rw [h] at e1 e2; cases e1; cases e2
  refine ⟨r1, ?_, l2, by simp [d1], g1⟩
  intro s t
  rw [a1]
  by_cases hst : s = net.g.nextNode ∨ t = net.g.nextNode
  · rw [a2 s t hst]; intro a ha; cases ha
  · have hs : s ≠ net.g.nextNode := fun h => hst (.inl h)
    have ht : t ≠ net.g.nextNode := fun h => hst (.inr h)
    rw [d1]
    simp only [hs, ht, if_false]
    exact hJ s t

theorem just_empty (J : Ask → NodeData → NodeData → Prop) : Just J {} := by
  intro s t a ha
  have : annots ({} : NetGraph) s t = [] := rfl
  rw [this] at ha; cases ha

end Verif.Proofs

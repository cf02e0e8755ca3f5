import Verif.Spec.AbsGraph

/-! Refinement of the adjacency-list graph to the edge-list specification. -/
set_option linter.unusedSimpArgs false
namespace Verif.Proofs
open Verif.Spec Verif.Model

/-- The simulation relation. -/
structure Rel (g : DGraph) (A : AbsGraph) : Prop where
  nodes : g.nodes = A.nodes
  nextNode : g.nextNode = A.nextNode
  nextEdge : g.nextEdge = A.nextEdge
  out : ∀ n, (g.obj n).outE = A.edges.filter fun e => e.src == n
  inn : ∀ n, (g.obj n).inE = A.edges.filter fun e => e.tgt == n
  idx : ∀ n ix, (g.obj n).index = some ix → ∀ t, ix t = (g.obj n).outE.find? fun e => e.tgt == t

/-- Well-formedness of the specification state. -/
structure AbsInv (A : AbsGraph) : Prop where
  nodup : A.nodes.Nodup
  fresh : ∀ n ∈ A.nodes, n < A.nextNode
  ends : ∀ e ∈ A.edges, e.src ∈ A.nodes ∧ e.tgt ∈ A.nodes ∧ e.id < A.nextEdge
  sorted : A.edges.Pairwise fun a b => a.id < b.id

theorem absInv_empty : AbsInv {} := by constructor <;> simp

theorem absInv_call {A A' : AbsGraph} {op : GOp} {o : GOut} (h : AbsInv A)
    (hc : A.call op = some (A', o)) : AbsInv A' := by
  have push : ∀ s t, s ∈ A.nodes → t ∈ A.nodes →
      AbsInv { A with edges := A.edges ++ [⟨A.nextEdge, s, t⟩], nextEdge := A.nextEdge + 1 } := by
    intro s t hs ht
    refine ⟨h.nodup, h.fresh, ?_, ?_⟩
    · intro e he
      rcases List.mem_append.1 he with he | he
      · obtain ⟨h1, h2, h3⟩ := h.ends e he
        exact ⟨h1, h2, Nat.lt_succ_of_lt h3⟩
      · simp only [List.mem_singleton] at he
        subst he; exact ⟨hs, ht, Nat.lt_succ_self _⟩
    · rw [List.pairwise_append]
      refine ⟨h.sorted, by simp, ?_⟩
      intro a ha b hb
      simp only [List.mem_singleton] at hb
      subst hb
      exact (h.ends a ha).2.2
  cases op with
  | addNode =>
    simp only [AbsGraph.call, Option.some.injEq, Prod.mk.injEq] at hc
    obtain ⟨rfl, _⟩ := hc
    refine ⟨?_, ?_, ?_, h.sorted⟩
    · rw [List.nodup_append]
      refine ⟨h.nodup, by simp, ?_⟩
      intro a ha b hb
      simp only [List.mem_singleton] at hb
      have := h.fresh a ha
      omega
    · intro n hn
      rcases List.mem_append.1 hn with hn | hn
      · have := h.fresh n hn; simp only; omega
      · simp only [List.mem_singleton] at hn; simp only; omega
    · intro e he
      obtain ⟨h1, h2, h3⟩ := h.ends e he
      exact ⟨List.mem_append_left _ h1, List.mem_append_left _ h2, h3⟩
  | addNewEdge s t =>
    simp only [AbsGraph.call] at hc
    split at hc
    · rename_i hst
      simp only [Option.some.injEq, Prod.mk.injEq] at hc
      obtain ⟨rfl, _⟩ := hc
      exact push s t hst.1 hst.2
    · cases hc
  | addEdge s t =>
    simp only [AbsGraph.call] at hc
    split at hc
    · rename_i hst
      split at hc
      · simp only [Option.some.injEq, Prod.mk.injEq] at hc
        obtain ⟨rfl, _⟩ := hc; exact h
      · simp only [Option.some.injEq, Prod.mk.injEq] at hc
        obtain ⟨rfl, _⟩ := hc
        exact push s t hst.1 hst.2
    · cases hc
  | removeEdge s t =>
    simp only [AbsGraph.call] at hc
    split at hc
    · simp only [Option.some.injEq, Prod.mk.injEq] at hc
      obtain ⟨rfl, _⟩ := hc
      refine ⟨h.nodup, h.fresh, ?_, ?_⟩
      · intro e he
        exact h.ends e (List.mem_of_mem_eraseP he)
      · exact h.sorted.sublist (List.eraseP_sublist)
    · cases hc
  | clearAllEdges n =>
    simp only [AbsGraph.call] at hc
    split at hc
    · simp only [Option.some.injEq, Prod.mk.injEq] at hc
      obtain ⟨rfl, _⟩ := hc
      refine ⟨h.nodup, h.fresh, ?_, ?_⟩
      · intro e he
        exact h.ends e (List.mem_filter.1 he).1
      · exact h.sorted.sublist (List.filter_sublist)
    · cases hc
  | removeNode n =>
    simp only [AbsGraph.call] at hc
    split at hc
    · simp only [Option.some.injEq, Prod.mk.injEq] at hc
      obtain ⟨rfl, _⟩ := hc
      refine ⟨h.nodup.erase _, ?_, ?_, ?_⟩
      · intro m hm; exact h.fresh m (List.mem_of_mem_erase hm)
      · intro e he
        obtain ⟨h1, h2, h3⟩ := h.ends e (List.mem_filter.1 he).1
        have hp := (List.mem_filter.1 he).2
        simp only [Bool.and_eq_true, bne_iff_ne, ne_eq] at hp
        exact ⟨(List.mem_erase_of_ne hp.1).2 h1, (List.mem_erase_of_ne hp.2).2 h2, h3⟩
      · exact h.sorted.sublist (List.filter_sublist)
    · simp only [Option.some.injEq, Prod.mk.injEq] at hc
      obtain ⟨rfl, _⟩ := hc; exact h

/-! ### List lemmas -/

theorem filter_eraseP_same {α : Type} (p q : α → Bool) (l : List α) :
    (l.eraseP fun x => p x && q x).filter p = (l.filter p).eraseP q := by
  induction l with
  | nil => rfl
  | cons a l ih =>
    by_cases hp : p a <;> by_cases hq : q a <;>
      simp [List.eraseP_cons, List.filter_cons, hp, hq, ih]

theorem filter_eraseP_disjoint {α : Type} (p r : α → Bool) (l : List α)
    (hd : ∀ x, r x = true → p x = false) :
    (l.eraseP r).filter p = l.filter p := by
  induction l with
  | nil => rfl
  | cons a l ih =>
    by_cases hr : r a
    · simp [List.eraseP_cons, List.filter_cons, hr, hd a hr]
    · by_cases hp : p a <;> simp [List.eraseP_cons, List.filter_cons, hr, hp, ih]

theorem find?_filter_and {α : Type} (p q : α → Bool) (l : List α) :
    (l.filter p).find? q = l.find? fun x => p x && q x := by
  induction l with
  | nil => rfl
  | cons a l ih =>
    by_cases hp : p a <;> by_cases hq : q a <;>
      simp [List.find?_cons, List.filter_cons, hp, hq, ih]

theorem any_filter_and {α : Type} (p q : α → Bool) (l : List α) :
    (l.filter p).any q = l.any fun x => p x && q x := by
  induction l with
  | nil => rfl
  | cons a l ih =>
    by_cases hp : p a <;> simp [List.filter_cons, hp, ih]

theorem find?_eraseP_disjoint {α : Type} (p r : α → Bool) (l : List α)
    (hd : ∀ x, r x = true → p x = false) :
    (l.eraseP r).find? p = l.find? p := by
  induction l with
  | nil => rfl
  | cons a l ih =>
    by_cases hr : r a
    · simp [List.eraseP_cons, List.find?_cons, hr, hd a hr]
    · by_cases hp : p a <;> simp [List.eraseP_cons, List.find?_cons, hr, hp, ih]

theorem tryEmplace_find (ix : Nat → Option Edge) (out : List Edge) (e : Edge)
    (h : ∀ t, ix t = out.find? fun x => x.tgt == t) (t : Nat) :
    tryEmplace ix e.tgt e t = (out ++ [e]).find? fun x => x.tgt == t := by
  unfold tryEmplace
  rw [List.find?_append]
  by_cases ht : t = e.tgt
  · subst ht
    simp only [↓reduceIte, h]
    cases hf : out.find? fun x => x.tgt == e.tgt <;> simp
  · simp only [ht, ↓reduceIte, h]
    have : (e.tgt == t) = false := by simp; exact fun h => ht h.symm
    simp [List.find?_cons, this]

theorem buildIndex_find (out : List Edge) (t : Nat) :
    buildIndex out t = out.find? fun x => x.tgt == t := by
  unfold buildIndex
  suffices H : ∀ (l pre : List Edge) (ix : Nat → Option Edge),
      (∀ t, ix t = pre.find? fun x => x.tgt == t) →
      ∀ t, l.foldl (fun ix e => tryEmplace ix e.tgt e) ix t
        = (pre ++ l).find? fun x => x.tgt == t by
    simpa using H out [] (fun _ => none) (by simp) t
  intro l
  induction l with
  | nil => intro pre ix h t; simpa using h t
  | cons a l ih =>
    intro pre ix h t
    simp only [List.foldl_cons]
    have := ih (pre ++ [a]) (tryEmplace ix a.tgt a) (tryEmplace_find ix pre a h) t
    simpa using this

theorem lookupOutEdge_eq {g : DGraph} {A : AbsGraph} (h : Rel g A) (s t : Nat) :
    lookupOutEdge (g.obj s) t = A.edges.find? fun e => e.src == s && e.tgt == t := by
  unfold lookupOutEdge
  rw [← find?_filter_and, ← h.out]
  split
  · rename_i ix hix
    exact h.idx s ix hix t
  · rfl

/-! ### Simulation -/

theorem upd_obj (g : DGraph) (n m : Nat) (f : NodeObj → NodeObj) :
    (g.upd n f).obj m = if m = n then f (g.obj n) else g.obj m := rfl

theorem rel_addNewEdge {g : DGraph} {A : AbsGraph} (h : Rel g A) (s t : Nat) :
    Rel (g.addNewEdge s t).1
      { A with edges := A.edges ++ [⟨A.nextEdge, s, t⟩], nextEdge := A.nextEdge + 1 } ∧
    (g.addNewEdge s t).2 = ⟨A.nextEdge, s, t⟩ := by
  have hne := h.nextEdge
  refine ⟨?_, by simp [DGraph.addNewEdge, hne]⟩
  have hout : ∀ n, ((g.addNewEdge s t).1.obj n).outE =
      if n = s then (g.obj s).outE ++ [⟨A.nextEdge, s, t⟩] else (g.obj n).outE := by
    intro n
    simp only [DGraph.addNewEdge, upd_obj, pushIn, pushOut, hne]
    by_cases h1 : n = s <;> by_cases h2 : n = t
    · subst h1; subst h2; simp
    · subst h1; simp [h2]
    · subst h2; simp [h1]
    · simp [h1, h2]
  have hin : ∀ n, ((g.addNewEdge s t).1.obj n).inE =
      if n = t then (g.obj t).inE ++ [⟨A.nextEdge, s, t⟩] else (g.obj n).inE := by
    intro n
    simp only [DGraph.addNewEdge, upd_obj, pushIn, pushOut, hne]
    by_cases h1 : n = s <;> by_cases h2 : n = t
    · subst h1; subst h2; simp
    · subst h1; simp [h2]
    · subst h2; simp [h1]
    · simp [h1, h2]
  have hidx : ∀ n, ((g.addNewEdge s t).1.obj n).index =
      if n = s then (pushOut (g.obj s) ⟨A.nextEdge, s, t⟩).index else (g.obj n).index := by
    intro n
    simp only [DGraph.addNewEdge, upd_obj, pushIn, hne]
    by_cases h1 : n = s <;> by_cases h2 : n = t
    · subst h1; subst h2; simp
    · subst h1; simp [h2]
    · subst h2; simp [h1]
    · simp [h1, h2]
  refine ⟨?_, ?_, ?_, ?_, ?_, ?_⟩
  · simp [DGraph.addNewEdge, DGraph.upd, h.nodes]
  · simp [DGraph.addNewEdge, DGraph.upd, h.nextNode]
  · simp [DGraph.addNewEdge, DGraph.upd, h.nextEdge]
  · intro n
    rw [hout, List.filter_append]
    by_cases h1 : n = s
    · subst h1; simp [h.out]
    · have : (s == n) = false := by simp; exact fun h => h1 h.symm
      simp [h1, h.out, List.filter_cons, this]
  · intro n
    rw [hin, List.filter_append]
    by_cases h1 : n = t
    · subst h1; simp [h.inn]
    · have : (t == n) = false := by simp; exact fun h => h1 h.symm
      simp [h1, h.inn, List.filter_cons, this]
  · intro n ix hix t'
    rw [hidx] at hix
    rw [hout]
    by_cases h1 : n = s
    · simp only [h1, ↓reduceIte] at hix ⊢
      simp only [pushOut] at hix
      split at hix
      · rename_i ix0 hix0
        simp only [Option.some.injEq] at hix
        subst hix
        exact tryEmplace_find ix0 _ ⟨A.nextEdge, s, t⟩ (h.idx s ix0 hix0) t'
      · split at hix
        · simp only [Option.some.injEq] at hix
          subst hix
          exact buildIndex_find _ t'
        · cases hix
    · simp only [h1, ↓reduceIte] at hix ⊢
      exact h.idx n ix hix t'

theorem rel_addEdge {g : DGraph} {A : AbsGraph} (h : Rel g A) (s t : Nat) :
    (∃ e, A.edges.find? (fun e => e.src == s && e.tgt == t) = some e ∧ g.addEdge s t = (g, e)) ∨
    (A.edges.find? (fun e => e.src == s && e.tgt == t) = none ∧
      g.addEdge s t = g.addNewEdge s t) := by
  unfold DGraph.addEdge
  rw [lookupOutEdge_eq h]
  cases hf : A.edges.find? (fun e => e.src == s && e.tgt == t) with
  | some e => exact Or.inl ⟨e, rfl, rfl⟩
  | none => exact Or.inr ⟨rfl, rfl⟩

theorem rel_removeEdge {g : DGraph} {A : AbsGraph} (h : Rel g A) (s t : Nat) :
    ∃ g', g.removeEdge s t =
        some (g', A.edges.any fun e => e.src == s && e.tgt == t) ∧
      Rel g' { A with edges := A.edges.eraseP fun e => e.src == s && e.tgt == t } := by
  unfold DGraph.removeEdge
  have ha1 : (g.obj s).outE.any (fun e => e.tgt == t) =
      A.edges.any (fun e => e.src == s && e.tgt == t) := by
    rw [h.out, any_filter_and]
  have ha2 : (g.obj t).inE.any (fun e => e.src == s) =
      A.edges.any (fun e => e.src == s && e.tgt == t) := by
    rw [h.inn, any_filter_and]
    congr 1; funext e; exact Bool.and_comm _ _
  rw [ha1]
  by_cases hany : A.edges.any (fun e => e.src == s && e.tgt == t) = true
  · simp only [hany, ↓reduceIte, removeInEdge, ha2]
    refine ⟨_, rfl, ?_⟩
    have hout : ∀ n, (((g.upd t fun _ =>
        { g.obj t with inE := (g.obj t).inE.eraseP fun e => e.src == s }).upd s
        fun n => eraseOut n t).obj n).outE =
        if n = s then (g.obj s).outE.eraseP (fun e => e.tgt == t) else (g.obj n).outE := by
      intro n
      simp only [upd_obj, eraseOut]
      by_cases h1 : n = s <;> by_cases h2 : n = t
      · subst h1; subst h2; simp
      · subst h1; simp [h2]
      · subst h2; simp [h1]
      · simp [h1, h2]
    have hin : ∀ n, (((g.upd t fun _ =>
        { g.obj t with inE := (g.obj t).inE.eraseP fun e => e.src == s }).upd s
        fun n => eraseOut n t).obj n).inE =
        if n = t then (g.obj t).inE.eraseP (fun e => e.src == s) else (g.obj n).inE := by
      intro n
      simp only [upd_obj, eraseOut]
      by_cases h1 : n = s <;> by_cases h2 : n = t
      · subst h1; subst h2; simp
      · subst h1; simp [h2]
      · subst h2; simp [h1]
      · simp [h1, h2]
    have hidx : ∀ n, (((g.upd t fun _ =>
        { g.obj t with inE := (g.obj t).inE.eraseP fun e => e.src == s }).upd s
        fun n => eraseOut n t).obj n).index =
        if n = s then (eraseOut (g.obj s) t).index else (g.obj n).index := by
      intro n
      simp only [upd_obj, eraseOut]
      by_cases h1 : n = s <;> by_cases h2 : n = t
      · subst h1; subst h2; simp
      · subst h1; simp [h2]
      · subst h2; simp [h1]
      · simp [h1, h2]
    refine ⟨h.nodes, h.nextNode, h.nextEdge, ?_, ?_, ?_⟩
    · intro n
      rw [hout]
      by_cases h1 : n = s
      · subst h1
        simp only [↓reduceIte, h.out]
        exact (filter_eraseP_same _ _ _).symm
      · simp only [h1, ↓reduceIte, h.out]
        refine (filter_eraseP_disjoint _ _ _ ?_).symm
        intro x hx
        simp only [Bool.and_eq_true, beq_iff_eq] at hx
        simp only [beq_eq_false_iff_ne, ne_eq]
        intro hc; exact h1 (hc.symm.trans hx.1)
    · intro n
      rw [hin]
      by_cases h1 : n = t
      · subst h1
        simp only [↓reduceIte, h.inn]
        have := filter_eraseP_same (fun e : Edge => e.tgt == n) (fun e => e.src == s) A.edges
        rw [← this]
        congr 2; funext e; exact Bool.and_comm _ _
      · simp only [h1, ↓reduceIte, h.inn]
        refine (filter_eraseP_disjoint _ _ _ ?_).symm
        intro x hx
        simp only [Bool.and_eq_true, beq_iff_eq] at hx
        simp only [beq_eq_false_iff_ne, ne_eq]
        intro hc; exact h1 (hc.symm.trans hx.2)
    · intro n ix hix t'
      rw [hidx] at hix
      rw [hout]
      by_cases h1 : n = s
      · simp only [h1, ↓reduceIte] at hix ⊢
        simp only [eraseOut] at hix
        split at hix
        · cases hix
        · rename_i ix0 hix0
          simp only [Option.some.injEq] at hix
          subst hix
          by_cases ht : t' = t
          · subst ht; simp
          · simp only [ht, ↓reduceIte]
            rw [h.idx s ix0 hix0]
            refine (find?_eraseP_disjoint _ _ _ ?_).symm
            intro x hx
            simp only [beq_iff_eq] at hx
            simp only [beq_eq_false_iff_ne, ne_eq]
            intro hc; exact ht (hc.symm.trans hx)
      · simp only [h1, ↓reduceIte] at hix ⊢
        exact h.idx n ix hix t'
  · simp only [hany, Bool.false_eq_true, ↓reduceIte]
    have hf : A.edges.any (fun e => e.src == s && e.tgt == t) = false := by
      simpa using hany
    refine ⟨g, rfl, ?_⟩
    have : (A.edges.eraseP fun e => e.src == s && e.tgt == t) = A.edges := by
      apply List.eraseP_of_forall_not
      intro a ha hpa
      apply hany
      exact List.any_eq_true.2 ⟨a, ha, hpa⟩
    rw [this]
    exact h

/-- Repeated removal of the first match, as often as there are matches, removes them all. -/
theorem iterate_eraseP {α : Type} (p : α → Bool) (k : Nat) (l : List α)
    (h : (l.filter p).length ≤ k) :
    Nat.rec l (fun _ l => l.eraseP p) k = l.filter (fun x => !p x) := by
  suffices H : ∀ k l, (l.filter p).length ≤ k →
      Nat.rec (motive := fun _ => List α → List α) id (fun _ f l => f (l.eraseP p)) k l
        = l.filter (fun x => !p x) by
    have comm : ∀ k l, Nat.rec (motive := fun _ => List α) l (fun _ l => l.eraseP p) k =
        Nat.rec (motive := fun _ => List α → List α) id (fun _ f l => f (l.eraseP p)) k l := by
      intro k
      induction k with
      | zero => intro l; rfl
      | succ k ih =>
        intro l
        simp only
        rw [← ih]
        clear ih
        induction k with
        | zero => rfl
        | succ k ih2 => simp only; rw [ih2]
    rw [comm]; exact H k l h
  intro k
  induction k with
  | zero =>
    intro l hl
    have h0 : l.filter p = [] := List.length_eq_zero_iff.1 (by omega)
    symm
    apply List.filter_eq_self.2
    intro a ha
    have := (List.filter_eq_nil_iff.1 h0) a ha
    simpa using this
  | succ k ih =>
    intro l hl
    simp only
    rw [ih]
    · exact filter_eraseP_disjoint _ _ _ (by intro x hx; simp [hx])
    · have : (l.eraseP p).filter p = (l.filter p).eraseP (fun _ => true) := by
        have := filter_eraseP_same p (fun _ => true) l
        simpa using this
      rw [this]
      cases hl' : l.filter p with
      | nil => simp
      | cons a as => simp [List.eraseP_cons]; rw [hl'] at hl; simpa using hl

theorem removeInEdge_fst (o : NodeObj) (n : Nat) :
    (removeInEdge o n).1 = { o with inE := o.inE.eraseP fun e => e.src == n } := by
  unfold removeInEdge
  split
  · rfl
  · rename_i h
    have : (o.inE.eraseP fun e => e.src == n) = o.inE := by
      apply List.eraseP_of_forall_not
      intro a ha hpa
      exact h (List.any_eq_true.2 ⟨a, ha, hpa⟩)
    rw [this]

theorem dropInEdges_spec (n : Nat) (L : List Edge) (g : DGraph) :
    (g.dropInEdges n L).nodes = g.nodes ∧
    (g.dropInEdges n L).nextNode = g.nextNode ∧
    (g.dropInEdges n L).nextEdge = g.nextEdge ∧
    ∀ m, ((g.dropInEdges n L).obj m).outE = (g.obj m).outE ∧
      ((g.dropInEdges n L).obj m).index = (g.obj m).index ∧
      ∃ k, k = (L.filter fun e => e.tgt == m).length ∧
      ((g.dropInEdges n L).obj m).inE =
        Nat.rec (motive := fun _ => List Edge) (g.obj m).inE
          (fun _ l => l.eraseP fun e => e.src == n) k := by
  induction L generalizing g with
  | nil => exact ⟨rfl, rfl, rfl, fun m => ⟨rfl, rfl, 0, rfl, rfl⟩⟩
  | cons a L ih =>
    simp only [DGraph.dropInEdges]
    obtain ⟨h1, h2, h3, h4⟩ := ih (g.upd a.tgt fun o => (removeInEdge o n).1)
    refine ⟨h1, h2, h3, ?_⟩
    intro m
    obtain ⟨h5, h6, k, hk, h7⟩ := h4 m
    rw [h5, h6, h7]
    simp only [upd_obj, removeInEdge_fst]
    by_cases hm : m = a.tgt
    · subst hm
      simp only [↓reduceIte, true_and]
      refine ⟨k + 1, by simp [hk], ?_⟩
      clear h7 hk
      induction k with
      | zero => rfl
      | succ k ihk => simp only at ihk ⊢; rw [ihk]
    · have : (a.tgt == m) = false := by simp; exact fun h => hm h.symm
      simp only [hm, ↓reduceIte, true_and]
      exact ⟨k, by simp [List.filter_cons, this, hk], rfl⟩

theorem rel_clear {g : DGraph} {A : AbsGraph} (h : Rel g A) (n : Nat) :
    ∃ g', g.clearAllEdges n = some g' ∧
      Rel g' { A with edges := A.edges.filter fun e => e.src != n && e.tgt != n } := by
  unfold DGraph.clearAllEdges
  obtain ⟨h1, h2, h3, h4⟩ := dropInEdges_spec n (g.obj n).outE g
  -- the state after the first loop and the clearing of the out list
  have hstage : Rel ((g.dropInEdges n (g.obj n).outE).upd n
      fun o => { o with outE := [], index := none })
      { A with edges := A.edges.filter fun e => e.src != n } := by
    refine ⟨h1.trans h.nodes, h2.trans h.nextNode, h3.trans h.nextEdge, ?_, ?_, ?_⟩
    · intro m
      simp only [upd_obj]
      by_cases hm : m = n
      · subst hm
        simp only [↓reduceIte, List.filter_filter]
        symm
        apply List.filter_eq_nil_iff.2
        intro e _ hc
        simp at hc
      · simp only [hm, ↓reduceIte]
        rw [(h4 m).1, h.out, List.filter_filter]
        apply List.filter_congr
        intro e _
        by_cases he : e.src = m
        · simp [he, hm]
        · simp [he]
    · intro m
      have hin : (((g.dropInEdges n (g.obj n).outE).upd n
          fun o => { o with outE := [], index := none }).obj m).inE =
          ((g.dropInEdges n (g.obj n).outE).obj m).inE := by
        simp only [upd_obj]
        by_cases hm : m = n
        · subst hm; simp
        · simp [hm]
      rw [hin]
      obtain ⟨_, _, k, hk, hin2⟩ := h4 m
      rw [hin2, iterate_eraseP]
      · rw [h.inn, List.filter_filter, List.filter_filter]
        apply List.filter_congr
        intro e _
        simp [bne, Bool.and_comm]
      · rw [hk, h.inn, h.out, List.filter_filter, List.filter_filter]
        apply Nat.le_of_eq
        congr 1
        apply List.filter_congr
        intro e _
        exact Bool.and_comm _ _
    · intro m ix hix t
      simp only [upd_obj] at hix ⊢
      by_cases hm : m = n
      · subst hm; simp at hix
      · simp only [hm, ↓reduceIte] at hix ⊢
        rw [(h4 m).2.1] at hix
        rw [(h4 m).1]
        exact h.idx m ix hix t
  -- the second loop
  have hloop : ∀ (L : List Edge) (g : DGraph) (A : AbsGraph), Rel g A →
      (g.obj n).inE = L →
      ∃ g', g.removeFrom n (L.map Edge.src) = some g' ∧ (g'.obj n).inE = [] ∧
        Rel g' { A with edges := A.edges.filter fun e => e.tgt != n } := by
    intro L
    induction L with
    | nil =>
      intro g A hr hL
      refine ⟨g, rfl, hL, ?_⟩
      have : (A.edges.filter fun e => e.tgt != n) = A.edges := by
        apply List.filter_eq_self.2
        intro e he
        have hnil := hr.inn n
        rw [hL] at hnil
        have := (List.filter_eq_nil_iff.1 hnil.symm) e he
        simpa [bne] using this
      rw [this]; exact hr
    | cons a L ih =>
      intro g A hr hL
      simp only [List.map_cons, DGraph.removeFrom]
      have hamem : a ∈ A.edges.filter fun e => e.tgt == n := by
        rw [← hr.inn, hL]; simp
      obtain ⟨hamemA, hatgt⟩ := List.mem_filter.1 hamem
      obtain ⟨g', hrem, hrel⟩ := rel_removeEdge hr a.src n
      rw [hrem]
      simp only
      have hinE : (g'.obj n).inE = L := by
        rw [hrel.inn]
        have h1 := filter_eraseP_same (fun e : Edge => e.tgt == n) (fun e => e.src == a.src)
          A.edges
        have h2 : (A.edges.eraseP fun e => e.src == a.src && e.tgt == n) =
            (A.edges.eraseP fun e => e.tgt == n && e.src == a.src) := by
          congr 1; funext e; exact Bool.and_comm _ _
        rw [h2, h1, ← hr.inn, hL]
        simp [List.eraseP_cons]
      obtain ⟨g'', hg'', hin'', hrel''⟩ := ih g' _ hrel hinE
      refine ⟨g'', hg'', hin'', ?_⟩
      have : ((A.edges.eraseP fun e => e.src == a.src && e.tgt == n).filter fun e => e.tgt != n)
          = A.edges.filter fun e => e.tgt != n := by
        apply filter_eraseP_disjoint
        intro x hx
        simp only [Bool.and_eq_true, beq_iff_eq] at hx
        simp [hx.2]
      simp only [this] at hrel''
      exact hrel''
  obtain ⟨g', hg', hin', hrel'⟩ := hloop _ _ _ hstage rfl
  simp only [hg', hin', ↓reduceIte]
  refine ⟨g', rfl, ?_⟩
  simp only [List.filter_filter] at hrel'
  have : (A.edges.filter fun e => e.src != n && e.tgt != n) =
      (A.edges.filter fun e => e.tgt != n && e.src != n) := by
    apply List.filter_congr; intro e _; exact Bool.and_comm _ _
  rw [this]; exact hrel'

theorem absInv_no_edges {A : AbsGraph} (h : AbsInv A) {n : Nat} (hn : n ∉ A.nodes) :
    (A.edges.filter fun e => e.src == n) = [] ∧ (A.edges.filter fun e => e.tgt == n) = [] := by
  constructor <;>
  · apply List.filter_eq_nil_iff.2
    intro e he hc
    simp only [beq_iff_eq] at hc
    have := h.ends e he
    simp_all

theorem call_sim {g : DGraph} {A : AbsGraph} (h : Rel g A) (hi : AbsInv A) (op : GOp) :
    match A.call op with
    | none => g.call op = none
    | some (A', o) => ∃ g', g.call op = some (g', o) ∧ Rel g' A' := by
  cases op with
  | addNode =>
    simp only [AbsGraph.call, DGraph.call, DGraph.addNode]
    refine ⟨_, congrArg some (Prod.ext rfl (congrArg GOut.node h.nextNode)), ?_⟩
    have hnn : g.nextNode ∉ A.nodes := by
      intro hc; have := hi.fresh _ hc; rw [h.nextNode] at this; omega
    obtain ⟨ho, hin⟩ := absInv_no_edges hi hnn
    refine ⟨?_, ?_, h.nextEdge, ?_, ?_, ?_⟩
    · simp [h.nodes, h.nextNode]
    · simp [h.nextNode]
    · intro m
      simp only [DGraph.upd]
      by_cases hm : m = g.nextNode
      · subst hm; simp [ho]
      · simp [hm, h.out]
    · intro m
      simp only [DGraph.upd]
      by_cases hm : m = g.nextNode
      · subst hm; simp [hin]
      · simp [hm, h.inn]
    · intro m ix hix t
      simp only [DGraph.upd] at hix ⊢
      by_cases hm : m = g.nextNode
      · simp [hm] at hix
      · simp only [hm, ↓reduceIte] at hix ⊢
        exact h.idx m ix hix t
  | addNewEdge s t =>
    simp only [AbsGraph.call, DGraph.call, h.nodes]
    by_cases hst : s ∈ A.nodes ∧ t ∈ A.nodes
    · simp only [hst, and_self, ↓reduceIte]
      obtain ⟨hr, he⟩ := rel_addNewEdge h s t
      exact ⟨_, by rw [he], hr⟩
    · simp only [hst, ↓reduceIte]
  | addEdge s t =>
    simp only [AbsGraph.call, DGraph.call, h.nodes]
    by_cases hst : s ∈ A.nodes ∧ t ∈ A.nodes
    · simp only [hst, and_self, ↓reduceIte]
      rcases rel_addEdge h s t with ⟨e, hf, heq⟩ | ⟨hf, heq⟩
      · rw [hf]; simp only [heq]; exact ⟨g, rfl, h⟩
      · rw [hf]; simp only [heq]
        obtain ⟨hr, he⟩ := rel_addNewEdge h s t
        exact ⟨_, by rw [he], hr⟩
    · simp only [hst, ↓reduceIte]
  | removeEdge s t =>
    simp only [AbsGraph.call, DGraph.call, h.nodes]
    by_cases hst : s ∈ A.nodes ∧ t ∈ A.nodes
    · simp only [hst, and_self, ↓reduceIte]
      obtain ⟨g', he, hr⟩ := rel_removeEdge h s t
      exact ⟨g', by rw [he]; rfl, hr⟩
    · simp only [hst, ↓reduceIte]
  | clearAllEdges n =>
    simp only [AbsGraph.call, DGraph.call, h.nodes]
    by_cases hn : n ∈ A.nodes
    · simp only [hn, ↓reduceIte]
      obtain ⟨g', he, hr⟩ := rel_clear h n
      exact ⟨g', by rw [he]; rfl, hr⟩
    · simp only [hn, ↓reduceIte]
  | removeNode n =>
    simp only [AbsGraph.call, DGraph.call, DGraph.removeNode, h.nodes]
    by_cases hn : n ∈ A.nodes
    · simp only [hn, ↓reduceIte]
      obtain ⟨g', he, hr⟩ := rel_clear h n
      rw [he]
      refine ⟨_, rfl, ?_⟩
      exact ⟨by simp [hr.nodes], hr.nextNode, hr.nextEdge, hr.out, hr.inn, hr.idx⟩
    · simp only [hn, ↓reduceIte]
      exact ⟨g, rfl, h⟩

theorem calls_sim {g : DGraph} {A : AbsGraph} (h : Rel g A) (hi : AbsInv A) (ops : List GOp) :
    match A.calls ops with
    | none => g.calls ops = none
    | some (A', os) => ∃ g', g.calls ops = some (g', os) ∧ Rel g' A' ∧ AbsInv A' := by
  induction ops generalizing g A with
  | nil => exact ⟨g, rfl, h, hi⟩
  | cons op ops ih =>
    simp only [AbsGraph.calls, DGraph.calls]
    have hs := call_sim h hi op
    cases hA : A.call op with
    | none => rw [hA] at hs; simp only at hs; simp [hs]
    | some r =>
      obtain ⟨A', o⟩ := r
      rw [hA] at hs
      obtain ⟨g', hg, hr⟩ := hs
      have := ih hr (absInv_call hi hA)
      simp only [hg]
      cases hA' : A'.calls ops with
      | none => rw [hA'] at this; simp only at this; simp [this]
      | some r =>
        obtain ⟨A'', os⟩ := r
        rw [hA'] at this
        obtain ⟨g'', hg'', hr'', hi''⟩ := this
        simp only [hg'']
        exact ⟨g'', rfl, hr'', hi''⟩

theorem rel_empty : Rel {} {} := by constructor <;> simp

/-- Every state reached by a history of calls is the image of a well-formed edge list. -/
theorem calls_rel {ops : List GOp} {g : DGraph} {os : List GOut}
    (h : DGraph.calls {} ops = some (g, os)) :
    ∃ A, AbsGraph.calls {} ops = some (A, os) ∧ Rel g A ∧ AbsInv A := by
  have := calls_sim rel_empty absInv_empty ops
  cases hA : AbsGraph.calls {} ops with
  | none => rw [hA] at this; simp only at this; rw [this] at h; cases h
  | some r =>
    obtain ⟨A, os'⟩ := r
    rw [hA] at this
    obtain ⟨g', hg', hr, hi⟩ := this
    rw [hg'] at h
    simp only [Option.some.injEq, Prod.mk.injEq] at h
    obtain ⟨rfl, rfl⟩ := h
    exact ⟨A, rfl, hr, hi⟩

end Verif.Proofs

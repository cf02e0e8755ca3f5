import Verif.Proofs.Net

/-! Helper lemmas for the sensitivity query. -/
set_option linter.unusedSimpArgs false
namespace Verif.Proofs
open Verif.Spec Verif.Model

theorem collectFromEdges_mem (net : NetGraph) (es : List Edge) (acc : List (Nat × EdgeKind))
    (p : Nat × EdgeKind) :
    p ∈ collectFromEdges net es acc ↔ p ∈ acc ∨ ∃ e ∈ es, (net.attr e.id).disabled = false ∧
      (net.attr e.id).edgeKind ≠ .none ∧ p = (e.src, (net.attr e.id).edgeKind) := by
  induction es generalizing acc with
  | nil => simp [collectFromEdges]
  | cons e es ih =>
    simp only [collectFromEdges]
    split
    · rename_i h
      rw [ih]
      simp only [List.mem_cons, exists_eq_or_imp]
      simp only [Bool.or_eq_true, beq_iff_eq] at h
      constructor
      · rintro (h1 | h1)
        · exact .inl h1
        · exact .inr (.inr h1)
      · rintro (h1 | h1 | h1)
        · exact .inl h1
        · rcases h with h | h
          · rw [h] at h1; simp at h1
          · exact absurd h h1.2.1
        · exact .inr h1
    · rename_i h
      simp only [Bool.or_eq_true, beq_iff_eq, not_or, Bool.not_eq_true] at h
      split
      · rename_i h2
        rw [ih]
        simp only [List.mem_cons, exists_eq_or_imp]
        have h3 : (e.src, (net.attr e.id).edgeKind) ∈ acc := by
          rw [List.any_eq_true] at h2
          obtain ⟨x, hx, hx2⟩ := h2
          simp only [Bool.and_eq_true, beq_iff_eq] at hx2
          rw [← hx2.1, ← hx2.2]; exact hx
        constructor
        · rintro (h1 | h1)
          · exact .inl h1
          · exact .inr (.inr h1)
        · rintro (h1 | h1 | h1)
          · exact .inl h1
          · rw [h1.2.2]; exact .inl h3
          · exact .inr h1
      · rw [ih]
        simp only [List.mem_cons, exists_eq_or_imp, List.mem_append, List.not_mem_nil, or_false]
        constructor
        · rintro ((h1 | h1) | h1)
          · exact .inl h1
          · exact .inr (.inl ⟨h.1, h.2, h1⟩)
          · exact .inr (.inr h1)
        · rintro (h1 | h1 | h1)
          · exact .inl (.inl h1)
          · exact .inl (.inr h1.2.2)
          · exact .inr h1

theorem collectFromEdges_nodup (net : NetGraph) (es : List Edge) (acc : List (Nat × EdgeKind))
    (h : acc.Nodup) : (collectFromEdges net es acc).Nodup := by
  induction es generalizing acc with
  | nil => exact h
  | cons e es ih =>
    simp only [collectFromEdges]
    split
    · exact ih acc h
    · split
      · exact ih acc h
      · rename_i h2
        apply ih
        rw [List.nodup_append]
        refine ⟨h, by simp, ?_⟩
        intro a ha b hb hab
        simp at hb; subst hb; subst hab
        exact h2 (List.any_eq_true.2 ⟨_, ha, by simp⟩)

theorem collectFromState_clocked {net : NetGraph} (hw : NetWF net) (r : Nat)
    (acc : List (Nat × EdgeKind)) (s : Nat) (k : EdgeKind) :
    (s, k) ∈ collectFromEdges net (net.g.obj r).inE acc ↔
      (s, k) ∈ acc ∨ ClockedBy net r s k := by
  rw [collectFromEdges_mem]
  apply or_congr Iff.rfl
  constructor
  · rintro ⟨e, he, hd, hk, heq⟩
    simp only [Prod.mk.injEq] at heq
    obtain ⟨h1, h2⟩ := (hw.mir r e).1 he
    refine ⟨e, by rw [heq.1]; exact h1, h2, hd, heq.2.symm, by rw [heq.2]; exact hk⟩
  · rintro ⟨e, he, rfl, hd, rfl, hk⟩
    have hs := (hw.out s e he).1
    subst hs
    exact ⟨e, (hw.mir _ e).2 ⟨he, rfl⟩, hd, hk, rfl⟩

/-- What the inner loop does. -/
theorem sensEdges_spec {net : NetGraph} (hw : NetWF net) (es : List Edge) (s : SensState) :
    ∃ new, (sensEdges net es s).visited = new ++ s.visited ∧
      (sensEdges net es s).stack = new ++ s.stack ∧
      (s.visited.Nodup → (sensEdges net es s).visited.Nodup) ∧
      (∀ v ∈ new, net.kind v ≠ .state ∧
        ∃ e ∈ es, e.tgt = v ∧ (net.attr e.id).disabled = false) ∧
      (∀ e ∈ es, (net.attr e.id).disabled = false → net.kind e.tgt ≠ .state →
        e.tgt ∈ (sensEdges net es s).visited) ∧
      (s.result.Nodup → (sensEdges net es s).result.Nodup) ∧
      (∀ p k, (p, k) ∈ (sensEdges net es s).result ↔ (p, k) ∈ s.result ∨
        ∃ e ∈ es, (net.attr e.id).disabled = false ∧ net.kind e.tgt = .state ∧
          ClockedBy net e.tgt p k) := by
  induction es generalizing s with
  | nil => exact ⟨[], by simp [sensEdges]⟩
  | cons e es ih =>
    simp only [sensEdges]
    split
    · rename_i hd
      obtain ⟨new, h1, h2, h3, h4, h5, h6, h7⟩ := ih s
      refine ⟨new, h1, h2, h3, ?_, ?_, h6, ?_⟩
      · intro v hv
        obtain ⟨ha, e', he', hb⟩ := h4 v hv
        exact ⟨ha, e', List.mem_cons_of_mem _ he', hb⟩
      · intro e' he' hd'
        rcases List.mem_cons.1 he' with rfl | he'
        · rw [hd] at hd'; cases hd'
        · exact h5 e' he' hd'
      · intro p k
        rw [h7]
        simp [hd]
    · rename_i hd
      simp only [Bool.not_eq_true] at hd
      split
      · rename_i hk
        obtain ⟨new, h1, h2, h3, h4, h5, h6, h7⟩ :=
          ih { s with result := collectFromEdges net (net.g.obj e.tgt).inE s.result }
        refine ⟨new, h1, h2, h3, ?_, ?_, ?_, ?_⟩
        · intro v hv
          obtain ⟨ha, e', he', hb⟩ := h4 v hv
          exact ⟨ha, e', List.mem_cons_of_mem _ he', hb⟩
        · intro e' he' hd' hk'
          rcases List.mem_cons.1 he' with rfl | he'
          · exact absurd hk hk'
          · exact h5 e' he' hd' hk'
        · intro hn; exact h6 (collectFromEdges_nodup _ _ _ hn)
        · intro p k
          rw [h7]
          simp only [collectFromState_clocked hw, List.mem_cons, exists_eq_or_imp, hd, hk,
            true_and, or_assoc]
      · rename_i hk
        split
        · rename_i hv
          obtain ⟨new, h1, h2, h3, h4, h5, h6, h7⟩ := ih s
          refine ⟨new, h1, h2, h3, ?_, ?_, h6, ?_⟩
          · intro v hv
            obtain ⟨ha, e', he', hb⟩ := h4 v hv
            exact ⟨ha, e', List.mem_cons_of_mem _ he', hb⟩
          · intro e' he' hd' hk'
            rcases List.mem_cons.1 he' with rfl | he'
            · rw [h1]; exact List.mem_append_right _ hv
            · exact h5 e' he' hd' hk'
          · intro p k
            rw [h7]
            simp [hk]
        · rename_i hv
          obtain ⟨new, h1, h2, h3, h4, h5, h6, h7⟩ :=
            ih { s with visited := e.tgt :: s.visited, stack := e.tgt :: s.stack }
          refine ⟨new ++ [e.tgt], by simp [h1], by simp [h2], ?_, ?_, ?_, h6, ?_⟩
          · intro hn; exact h3 (List.nodup_cons.2 ⟨hv, hn⟩)
          · intro v hv'
            rcases List.mem_append.1 hv' with hv' | hv'
            · obtain ⟨ha, e', he', hb⟩ := h4 v hv'
              exact ⟨ha, e', List.mem_cons_of_mem _ he', hb⟩
            · simp at hv'; subst hv'
              exact ⟨hk, e, by simp, rfl, hd⟩
          · intro e' he' hd' hk'
            rcases List.mem_cons.1 he' with rfl | he'
            · rw [h1]; simp
            · exact h5 e' he' hd' hk'
          · intro p k
            rw [h7]
            simp [hk]

structure SensInv (net : NetGraph) (n : Nat) (s : SensState) (done : List Nat) : Prop where
  perm : (done ++ s.stack).Perm s.visited
  vnodup : s.visited.Nodup
  startV : n ∈ s.visited
  live : ∀ v ∈ s.visited, v ∈ net.g.nodes
  reach : ∀ v ∈ s.visited, Reach (CombStep net) n v
  closed : ∀ v ∈ done, ∀ e ∈ (net.g.obj v).outE, (net.attr e.id).disabled = false →
    (net.kind e.tgt ≠ .state → e.tgt ∈ s.visited) ∧
    (net.kind e.tgt = .state → ∀ p k, ClockedBy net e.tgt p k → (p, k) ∈ s.result)
  sound : ∀ p k, (p, k) ∈ s.result → ∃ r, Feeds net n r ∧ ClockedBy net r p k
  rnodup : s.result.Nodup

theorem sens_step {net : NetGraph} (hw : NetWF net) {n : Nat} {s : SensState} {done : List Nat}
    {cur : Nat} {rest : List Nat} (h : SensInv net n s done) (hst : s.stack = cur :: rest) :
    SensInv net n (sensEdges net (net.g.obj cur).outE { s with stack := rest }) (cur :: done) := by
  obtain ⟨new, h1, h2, h3, h4, h5, h6, h7⟩ :=
    sensEdges_spec hw (net.g.obj cur).outE { s with stack := rest }
  simp only at h1 h2 h3 h6 h7
  have hcur : cur ∈ s.visited := h.perm.mem_iff.1 (by rw [hst]; simp)
  have hcl := h.live cur hcur
  refine ⟨?_, h3 h.vnodup, ?_, ?_, ?_, ?_, ?_, h6 h.rnodup⟩
  · rw [h1, h2]
    have hp := h.perm
    rw [hst] at hp
    have e1 : (cur :: done ++ (new ++ rest)).Perm (new ++ (done ++ cur :: rest)) := by
      refine List.Perm.trans ?_ (List.Perm.append_left _ List.perm_middle.symm)
      refine List.Perm.trans ?_ List.perm_middle.symm
      refine List.Perm.cons _ ?_
      show (done ++ (new ++ rest)).Perm _
      rw [← List.append_assoc, ← List.append_assoc]
      exact List.Perm.append_right _ List.perm_append_comm
    exact e1.trans (List.Perm.append_left _ hp)
  · rw [h1]; exact List.mem_append_right _ h.startV
  · intro v hv
    rw [h1] at hv
    rcases List.mem_append.1 hv with hv | hv
    · obtain ⟨_, e, he, rfl, _⟩ := h4 v hv
      exact (hw.out cur e he).2.2
    · exact h.live v hv
  · intro v hv
    rw [h1] at hv
    rcases List.mem_append.1 hv with hv | hv
    · obtain ⟨hk, e, he, rfl, hd⟩ := h4 v hv
      exact (h.reach cur hcur).tail ⟨⟨hcl, e, he, rfl, hd⟩, hk⟩
    · exact h.reach v hv
  · intro v hv e he hd
    rcases List.mem_cons.1 hv with rfl | hv
    · exact ⟨h5 e he hd, fun hk p k hc => (h7 p k).2 (.inr ⟨e, he, hd, hk, hc⟩)⟩
    · obtain ⟨ha, hb⟩ := h.closed v hv e he hd
      refine ⟨fun hk => ?_, fun hk p k hc => (h7 p k).2 (.inl (hb hk p k hc))⟩
      rw [h1]; exact List.mem_append_right _ (ha hk)
  · intro p k hp
    rcases (h7 p k).1 hp with hp | ⟨e, he, hd, hk, hc⟩
    · exact h.sound p k hp
    · exact ⟨e.tgt, ⟨hk, cur, h.reach cur hcur, hcl, e, he, rfl, hd⟩, hc⟩

theorem nodup_length_le {l m : List Nat} (h : l.Nodup) (hs : ∀ x ∈ l, x ∈ m) :
    l.length ≤ m.length := by
  induction l generalizing m with
  | nil => simp
  | cons a l ih =>
    rw [List.nodup_cons] at h
    have ha := hs a (by simp)
    have := ih h.2 (m := m.erase a) (by
      intro x hx
      have hne : x ≠ a := fun hc => h.1 (hc ▸ hx)
      exact (List.mem_erase_of_ne hne).2 (hs x (List.mem_cons_of_mem _ hx)))
    rw [List.length_erase_of_mem ha] at this
    have : 0 < m.length := List.length_pos_of_mem ha
    simp; omega

theorem sensLoop_inv {net : NetGraph} (hw : NetWF net) {n : Nat} (fuel : Nat) {s : SensState}
    {done : List Nat} (h : SensInv net n s done)
    (hf : net.g.nodes.length < fuel + done.length) :
    ∃ done', SensInv net n (sensLoop net fuel s) done' ∧ (sensLoop net fuel s).stack = [] := by
  induction fuel generalizing s done with
  | zero =>
    exfalso
    have := nodup_length_le h.vnodup h.live
    have := h.perm.length_eq
    simp at this; omega
  | succ fuel ih =>
    cases hst : s.stack with
    | nil => simp only [sensLoop, hst]; exact ⟨done, h, trivial⟩
    | cons cur rest =>
      simp only [sensLoop, hst]
      exact ih (sens_step hw h hst) (by simp; omega)

theorem sensitivity_comb {net : NetGraph} (hw : NetWF net) (n : Nat) (hn : n ∈ net.g.nodes)
    (hk : net.kind n ≠ .state) :
    (sensitivity net n).Nodup ∧ ∀ p k, (p, k) ∈ sensitivity net n ↔
      ∃ r, Feeds net n r ∧ ClockedBy net r p k := by
  have h0 : SensInv net n ⟨[n], [n], []⟩ [] := by
    refine ⟨by simp, by simp, by simp, by simpa using hn, ?_, by simp, by simp, by simp⟩
    intro v hv; simp at hv; subst hv; exact Reach.refl
  obtain ⟨done, hi, hst⟩ := sensLoop_inv hw (net.g.nodes.length + 1) h0 (by simp)
  simp only [sensitivity, hk, ↓reduceIte]
  generalize sensLoop net (net.g.nodes.length + 1) ⟨[n], [n], []⟩ = s at hi hst
  refine ⟨hi.rnodup, fun p k => ⟨hi.sound p k, ?_⟩⟩
  rintro ⟨r, ⟨hr, m, hm, hlive, e, he, rfl, hd⟩, hc⟩
  clear hlive
  have hp := hi.perm
  rw [hst, List.append_nil] at hp
  have hvis : m ∈ s.visited := by
    clear he hd hc
    induction hm with
    | refl => exact hi.startV
    | tail _ hs ih =>
      obtain ⟨⟨_, e', he', rfl, hd'⟩, hk'⟩ := hs
      exact (hi.closed _ (hp.mem_iff.2 ih) e' he' hd').1 hk'
  exact (hi.closed m (hp.mem_iff.2 hvis) e he hd).2 hr p k hc

end Verif.Proofs

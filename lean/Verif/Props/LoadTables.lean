import Verif.Props.Serial
import Verif.Proofs.Reload

/-!
C41: the tables of a loaded netlist: no file name is entered twice, and edges whose symbols have the same
path share one symbol.
-/
namespace Verif.Props
open Verif.Model Verif.Spec Verif.Proofs

theorem loadFiles_nodup (js : List Json) : ∀ {fs gs : List Str}, fs.Nodup → loadFiles fs js = .ok gs →
    gs.Nodup ∧ ∀ s, s ∈ gs ↔ s ∈ fs ∨ ∃ j ∈ js, j.getStr = .ok s := by
  induction js with
  | nil => intro fs gs hf h; cases h; exact ⟨hf, by simp⟩
  | cons j js ih =>
    intro fs gs hf h
    simp only [loadFiles] at h
    split at h
    · cases h
    · rename_i s hs
      have hn : (addFileSeq fs s).Nodup ∧ ∀ x, x ∈ addFileSeq fs s ↔ x ∈ fs ∨ x = s := by
        unfold addFileSeq
        split
        · rename_i hm
          exact ⟨hf, fun x => ⟨.inl, fun h => h.elim id (by rintro rfl; exact hm)⟩⟩
        · rename_i hm
          refine ⟨?_, by simp⟩
          rw [List.nodup_append]
          refine ⟨hf, by simp, ?_⟩
          intro a ha b hb he
          rw [List.mem_singleton] at hb
          subst he; subst hb
          exact hm ha
      obtain ⟨h1, h2⟩ := ih hn.1 h
      refine ⟨h1, fun x => ?_⟩
      rw [h2, hn.2]
      constructor
      · rintro ((h | rfl) | ⟨k, hk, he⟩)
        · exact .inl h
        · exact .inr ⟨j, List.mem_cons_self, hs⟩
        · exact .inr ⟨k, List.mem_cons_of_mem _ hk, he⟩
      · rintro (h | ⟨k, hk, he⟩)
        · exact .inl (.inl h)
        · rcases List.mem_cons.1 hk with rfl | hk
          · rw [hs] at he; cases he; exact .inl (.inr rfl)
          · exact .inr ⟨k, hk, he⟩

/-- The symbols of the edges are those of the table, in which no path occurs twice. -/
structure SymTable (st : LoadSt) : Prop where
  once : (st.syms.map SymRef.path).Nodup
  used : ∀ e s, (st.net.attr e).symbol = some s → s ∈ st.syms

theorem intern_once {l : List SymRef} (h : (l.map SymRef.path).Nodup) (s : SymRef) :
    (((internSym l s).1).map SymRef.path).Nodup ∧ (internSym l s).2 ∈ (internSym l s).1 ∧
      ∀ x ∈ l, x ∈ (internSym l s).1 := by
  unfold internSym
  split
  · rename_i r hr
    exact ⟨h, List.mem_of_find?_eq_some hr, fun _ hx => hx⟩
  · rename_i hr
    refine ⟨?_, by simp, fun x hx => by simp [hx]⟩
    rw [List.find?_eq_none] at hr
    rw [List.map_append, List.nodup_append]
    refine ⟨h, by simp, ?_⟩
    intro a ha b hb he
    obtain ⟨x, hx, rfl⟩ := List.mem_map.1 ha
    simp only [List.map_cons, List.map_nil, List.mem_singleton] at hb
    exact hr x hx (by simp [he, hb])

theorem edgeAttrOf_syms {l l' : List SymRef} {j : Json} {a : EdgeAttr} (h : (l.map SymRef.path).Nodup)
    (he : edgeAttrOf l j = .ok (l', a)) :
    (l'.map SymRef.path).Nodup ∧ (∀ x ∈ l, x ∈ l') ∧ ∀ s, a.symbol = some s → s ∈ l' := by
  unfold edgeAttrOf at he
  split at he
  · cases he
  split at he
  · cases he
  rename_i sj hsj
  dsimp only at he
  split at he
  · cases he
  rename_i syms' so hso
  have hl : (syms'.map SymRef.path).Nodup ∧ (∀ x ∈ l, x ∈ syms') ∧ ∀ s, so = some s → s ∈ syms' := by
    split at hso
    · split at hso
      · cases hso
      · rename_i s hs
        simp only [Except.ok.injEq, Prod.mk.injEq] at hso
        obtain ⟨rfl, rfl⟩ := hso
        obtain ⟨h1, h2, h3⟩ := intern_once h s
        exact ⟨h1, h3, fun t ht => by cases ht; exact h2⟩
    · simp only [Except.ok.injEq, Prod.mk.injEq] at hso
      obtain ⟨rfl, rfl⟩ := hso
      exact ⟨h, fun _ hx => hx, fun _ ht => by cases ht⟩
  split at he
  · simp only [Except.ok.injEq, Prod.mk.injEq] at he
    obtain ⟨rfl, rfl⟩ := he
    exact hl
  · cases he
  · cases he

theorem loadEdges_syms (js : List Json) : ∀ {st st' : LoadSt}, SymTable st → loadEdges st js = .ok st' →
    SymTable st' ∧ st'.files = st.files := by
  induction js with
  | nil => intro st st' hs h; cases h; exact ⟨hs, rfl⟩
  | cons j js ih =>
    intro st st' hs h
    simp only [loadEdges] at h
    split at h
    · cases h
    rename_i st1 h1
    have : SymTable st1 ∧ st1.files = st.files := by
      unfold loadEdge at h1
      split at h1
      · cases h1
      · cases h1
      split at h1
      · rename_i a b ha hb
        split at h1
        · cases h1
        rename_i n1 hn1
        split at h1
        · cases h1
        rename_i syms' attr hat
        split at h1
        · cases h1
        rename_i n2 hn2
        cases h1
        obtain ⟨k1, k2, k3⟩ := edgeAttrOf_syms hs.once hat
        refine ⟨⟨k1, fun e s he => ?_⟩, rfl⟩
        simp only [NetGraph.call, NetOp.gop, Option.some.injEq] at hn2
        subst hn2
        dsimp only at he
        split at he
        · exact k3 s he
        · rcases call_attr hn1 (e := e) (by simp) with h | h
          · rw [h] at he; exact k2 s (hs.used e s he)
          · rw [h] at he; cases he
      · cases h1
    obtain ⟨k1, k2⟩ := ih this.1 h
    exact ⟨k1, k2.trans this.2⟩

theorem loadNodes_syms (c : ConstCodec) (js : List Json) : ∀ {st st' : LoadSt}, SymTable st →
    loadNodes c st js = .ok st' → SymTable st' ∧ st'.files = st.files := by
  induction js with
  | nil => intro st st' hs h; cases h; exact ⟨hs, rfl⟩
  | cons j js ih =>
    intro st st' hs h
    simp only [loadNodes] at h
    split at h
    · cases h
    split at h
    · cases h
    rename_i _ id d _ _ n1 hn1
    have : SymTable { st with net := n1, idMap := fun k => if k = id then some st.net.g.nextNode else st.idMap k } := by
      refine ⟨hs.once, fun e s he => ?_⟩
      rcases call_attr hn1 (e := e) (by simp) with h | h
      · dsimp only at he; rw [h] at he; exact hs.used e s he
      · dsimp only at he; rw [h] at he; cases he
    obtain ⟨k1, k2⟩ := ih this h
    exact ⟨k1, k2⟩

/-- C41: whatever file is loaded, the table of file names holds the names of the file, each once, and two
edges whose symbols have the same path have the same symbol. -/
theorem load_tables {c : ConstCodec} {j : Json} {st : LoadSt} (h : load c j = .ok st) :
    st.files.Nodup ∧
    (∃ fj, Member j "fileTable" fj ∧ ∀ s, s ∈ st.files ↔ .str s ∈ elements fj) ∧
    ∀ e f s t, (st.net.attr e).symbol = some s → (st.net.attr f).symbol = some t → s.path = t.path → s = t := by
  unfold load at h
  split at h
  · cases h
  split at h
  · cases h
  split at h
  · cases h
  rename_i fj hfj
  split at h
  · cases h
  rename_i files hfiles
  split at h
  · cases h
  rename_i boxes hboxes
  split at h
  · cases h
  rename_i nj hnj
  split at h
  · cases h
  rename_i st1 hn1
  split at h
  · cases h
  rename_i ej hej
  obtain ⟨k1, k2⟩ := loadFiles_nodup _ (by simp) hfiles
  obtain ⟨k3, k4⟩ := loadNodes_syms c _ ⟨by simp, fun e s he => by cases he⟩ hn1
  obtain ⟨k5, k6⟩ := loadEdges_syms _ k3 h
  have e : st.files = files := k6.trans k4
  rw [e]
  refine ⟨k1, ⟨fj, at_ok.1 hfj, fun s => ?_⟩, fun e f s t hs ht hp => ?_⟩
  · rw [k2, ← iter_elements]
    constructor
    · rintro (hs | ⟨x, hx, hs⟩)
      · cases hs
      · cases x <;> cases hs
        exact hx
    · exact fun hs => Or.inr ⟨_, hs, rfl⟩
  have m1 := k5.used e s hs
  have m2 := k5.used f t ht
  have hi := k5.once
  revert hi m1 m2
  generalize st.syms = l
  intro m1 m2 hi
  induction l with
  | nil => cases m1
  | cons a l ih =>
    rw [List.map_cons, List.nodup_cons] at hi
    rcases List.mem_cons.1 m1 with q1 | q1 <;> rcases List.mem_cons.1 m2 with q2 | q2
    · exact q1.trans q2.symm
    · exact absurd (List.mem_map.2 ⟨t, q2, by rw [← hp, q1]⟩) hi.1
    · exact absurd (List.mem_map.2 ⟨s, q1, by rw [hp, q2]⟩) hi.1
    · exact ih q1 q2 hi.2

/-- A file that can be loaded. -/
example : ∃ st, load ⟨some, []⟩ (tinyFile (.int 3)) = .ok st :=
  ok_of_edges (by decide +kernel)

/-- Applied to this file. -/
example : ∃ st, load ⟨some, []⟩ (tinyFile (.int 3)) = .ok st ∧ st.files.Nodup ∧
    ∃ fj, Member (tinyFile (.int 3)) "fileTable" fj ∧ ∀ s, s ∈ st.files ↔ .str s ∈ elements fj :=
  have ⟨st, h⟩ : ∃ st, load ⟨some, []⟩ (tinyFile (.int 3)) = .ok st := ok_of_edges (by decide +kernel)
  ⟨st, h, (load_tables h).1, (load_tables h).2.1⟩

end Verif.Props

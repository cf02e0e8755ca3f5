import Verif.Spec.Reload
import Verif.Proofs.Grown
import Verif.Proofs.Serial
import Verif.Props.Query
import Verif.Props.Cli

/-! Helper lemmas: queries on a netlist that was saved and loaded again. -/
namespace Verif.Proofs
open Verif.Model Verif.Spec Verif.Props

/-! ### Netlists in which no node was ever removed -/

/-- Addresses and IDs are those of creation. -/
structure Tidy (net : NetGraph) : Prop where
  nodes : net.g.nodes = List.range net.g.nextNode
  ids : ∀ n, net.id n = if n < net.g.nextNode then n + 1 else 0
  next : net.nextID = net.g.nextNode + 1
  data : ∀ n, net.g.nextNode ≤ n → net.data n = .bare

theorem tidy_empty (boxes : List Str) : Tidy { blackBoxes := boxes } :=
  ⟨rfl, fun _ => rfl, rfl, fun _ _ => rfl⟩

theorem tidy_node {net net' : NetGraph} (h : Tidy net) {d : NodeData} (hc : net.call (.addNode d) = some net') :
    Tidy net' := by
  simp only [NetGraph.call, NetOp.gop, DGraph.call, Option.some.injEq] at hc
  subst hc
  refine ⟨?_, fun n => ?_, ?_, fun n hn => ?_⟩
  · simp only [DGraph.addNode, DGraph.upd, h.nodes, List.range_succ]
  · simp only [DGraph.addNode, DGraph.upd, h.ids, h.next]
    split
    · rename_i e; subst e; rw [if_pos (Nat.lt_succ_self _)]
    · split
      · rw [if_pos (by omega)]
      · rw [if_neg (by omega)]
  · simp only [DGraph.addNode, DGraph.upd, h.next]
  · simp only [DGraph.addNode, DGraph.upd] at hn ⊢
    rw [if_neg (by omega)]
    exact h.data n (by omega)

theorem addNewEdge_frame (g : DGraph) (s t : Nat) :
    (g.addNewEdge s t).1.nodes = g.nodes ∧ (g.addNewEdge s t).1.nextNode = g.nextNode := ⟨rfl, rfl⟩

theorem addEdge_frame (g : DGraph) (s t : Nat) :
    (g.addEdge s t).1.nodes = g.nodes ∧ (g.addEdge s t).1.nextNode = g.nextNode := by
  unfold DGraph.addEdge
  split
  · exact ⟨rfl, rfl⟩
  · exact addNewEdge_frame g s t

theorem tidy_same {net net' : NetGraph} (h : Tidy net) (h1 : net'.g.nodes = net.g.nodes)
    (h2 : net'.g.nextNode = net.g.nextNode) (h3 : net'.id = net.id) (h4 : net'.nextID = net.nextID)
    (h5 : net'.data = net.data) : Tidy net' :=
  ⟨by rw [h1, h2]; exact h.nodes, by rw [h2, h3]; exact h.ids, by rw [h2, h4]; exact h.next,
    by rw [h2, h5]; exact h.data⟩

theorem tidy_edge {net net' : NetGraph} (h : Tidy net) {a b : Nat} (hc : net.call (.addEdge a b) = some net') :
    Tidy net' := by
  simp only [NetGraph.call, NetOp.gop, DGraph.call] at hc
  split at hc
  · cases hc
  · rename_i g' o e
    split at e
    · cases e; cases hc
      exact tidy_same h (addEdge_frame _ _ _).1 (addEdge_frame _ _ _).2 rfl rfl rfl
    · cases e

theorem tidy_newEdge {net net' : NetGraph} (h : Tidy net) {a b : Nat}
    (hc : net.call (.addNewEdge a b) = some net') : Tidy net' := by
  simp only [NetGraph.call, NetOp.gop, DGraph.call] at hc
  split at hc
  · cases hc
  · rename_i g' o e
    split at e
    · cases e; cases hc
      exact tidy_same h rfl rfl rfl rfl rfl
    · cases e

theorem tidy_attr {net net' : NetGraph} (h : Tidy net) {e : Nat} {a : EdgeAttr}
    (hc : net.call (.setAttr e a) = some net') : Tidy net' := by
  simp only [NetGraph.call, NetOp.gop, Option.some.injEq] at hc
  subst hc
  exact tidy_same h rfl rfl rfl rfl rfl

/-- What the builder's calls keep: addresses and IDs are those of creation, no edge is disabled, the
symbols on the edges are those of the design. -/
structure Sown (D : Design) (net : NetGraph) : Prop where
  reach : Reachable net
  tidy : Tidy net
  live : ∀ e, (net.attr e).disabled = false
  syms : ∀ e s, (net.attr e).symbol = some s → ∃ y, s = D.ref y

theorem sown_empty (D : Design) : Sown D {} :=
  ⟨⟨[], rfl⟩, tidy_empty [], fun _ => rfl, fun _ _ h => by cases h⟩

theorem call_attr {net net' : NetGraph} {op : NetOp} (hc : net.call op = some net') {e : Nat}
    (hop : ∀ e a, op ≠ .setAttr e a) : net'.attr e = net.attr e ∨ net'.attr e = {} := by
  unfold NetGraph.call at hc
  split at hc
  · split at hc
    · cases hc
    · simp only [Option.some.injEq] at hc
      subst hc
      dsimp only
      split
      · exact .inr rfl
      · exact .inl rfl
  · split at hc
    · exact absurd rfl (hop _ _)
    · simp only [Option.some.injEq] at hc; subst hc; exact .inl rfl
    · simp only [Option.some.injEq] at hc; subst hc; exact .inl rfl
    · simp only [Option.some.injEq] at hc; subst hc; exact .inl rfl

theorem sown_keeps (D : Design) : Keeps D (Sown D) := by
  intro net op net' h hg hc
  have hr := reach_call h.reach hc
  have plain : (∀ e a, op ≠ .setAttr e a) → Tidy net' → Sown D net' := fun hop ht => by
    refine ⟨hr, ht, fun e => ?_, fun e s hs => ?_⟩
    · rcases call_attr hc (e := e) hop with h1 | h1
      · rw [h1]; exact h.live e
      · rw [h1]
    · rcases call_attr hc (e := e) hop with h1 | h1
      · rw [h1] at hs; exact h.syms e s hs
      · rw [h1] at hs; cases hs
  cases op with
  | addNode d => exact plain (by simp) (tidy_node h.tidy hc)
  | addEdge a b => exact plain (by simp) (tidy_edge h.tidy hc)
  | addNewEdge a b => exact plain (by simp) (tidy_newEdge h.tidy hc)
  | setAttr e a =>
    have ht := tidy_attr h.tidy hc
    obtain ⟨g1, g2⟩ := hg
    simp only [NetGraph.call, NetOp.gop, Option.some.injEq] at hc
    subst hc
    refine ⟨hr, ht, fun k => ?_, fun k s hs => ?_⟩
    · dsimp only
      split
      · rw [g1]; exact h.live e
      · exact h.live k
    · dsimp only at hs
      split at hs
      · rcases g2 with g2 | ⟨y, g2⟩
        · exact h.syms e s (g2.symm.trans hs)
        · rw [g2] at hs; cases hs; exact ⟨y, rfl⟩
      · exact h.syms k s hs
  | removeEdge | clearAllEdges | removeNode | resetIds | addBlackBox => exact absurd hg (by simp [Grow])

theorem netlist_sown {E : TravEnv} {ord : Tracker → List (Nat × Nat)} {top : List Member} {net : NetGraph}
    (h : netlist E ord top = .ok net) : Sown E.D net :=
  keeps_netlist (sown_keeps E.D) (sown_empty E.D) h

theorem tidy_unique {net : NetGraph} (h : Tidy net) : UniqueIds net := by
  intro a ha b hb e
  rw [h.nodes, List.mem_range] at ha hb
  rw [h.ids, h.ids, if_pos ha, if_pos hb] at e
  omega

theorem sown_savable {D : Design} {net : NetGraph} (h : Sown D net) (hz : Sized net) (hi : Interned D) :
    Savable net :=
  ⟨hz.ids, hz.data, hz.attr, fun e f s t _ _ hs ht hp => by
    obtain ⟨y, rfl⟩ := h.syms _ _ hs
    obtain ⟨z, rfl⟩ := h.syms _ _ ht
    exact hi y z hp⟩

/-! ### The loaded netlist -/

theorem loadNodes_tidy (c : ConstCodec) (js : List Json) : ∀ {st st' : LoadSt}, Tidy st.net →
    loadNodes c st js = .ok st' → Tidy st'.net := by
  induction js with
  | nil => intro st st' h0 h; cases h; exact h0
  | cons j js ih =>
    intro st st' h0 h
    unfold loadNodes at h
    split at h
    · cases h
    · split at h
      · cases h
      · rename_i net' e
        exact ih (by exact tidy_node h0 e) h

theorem loadEdges_tidy (js : List Json) : ∀ {st st' : LoadSt}, Tidy st.net →
    loadEdges st js = .ok st' → Tidy st'.net := by
  induction js with
  | nil => intro st st' h0 h; cases h; exact h0
  | cons j js ih =>
    intro st st' h0 h
    unfold loadEdges at h
    split at h
    · cases h
    · rename_i st1 h1
      refine ih ?_ h
      unfold loadEdge at h1
      split at h1
      · cases h1
      · cases h1
      · split at h1
        · split at h1
          · cases h1
          · rename_i n1 e1
            split at h1
            · cases h1
            · split at h1
              · cases h1
              · rename_i n2 e2
                cases h1
                exact tidy_attr (tidy_edge h0 e1) e2
        · cases h1

theorem load_tidy {c : ConstCodec} {j : Json} {st : LoadSt} (h : load c j = .ok st) : Tidy st.net := by
  unfold load at h
  split at h
  · cases h
  · split at h
    · cases h
    · split at h
      · cases h
      · split at h
        · cases h
        · split at h
          · cases h
          · rename_i boxes _
            split at h
            · cases h
            · split at h
              · cases h
              · rename_i st1 h1
                split at h
                · cases h
                · exact loadEdges_tidy _ (loadNodes_tidy c _ (by exact tidy_empty boxes) h1) h

end Verif.Proofs

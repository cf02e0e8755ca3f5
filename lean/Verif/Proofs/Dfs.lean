import Verif.Spec.Reach
import Verif.Model.Dfs

/-! Invariants of the traversal machine in `Verif.Model.Dfs`. -/
namespace Verif.Proofs
open Verif.Spec Verif.Model

variable {ε : Type}

/-- Accepted edge relation of an adjacency structure. -/
def Acc (G : Adj ε) (a b : Nat) : Prop := ∃ e ∈ G.edges a, G.ok e = true ∧ G.next e = b

/-- Nodes announced by `visitNode`. -/
def evNode : Ev ε → Option Nat
  | .visitNode n => some n
  | .visitedNode _ => none
  | .visitEdge _ => none
  | .popNode => none

/-- Edges announced by `visitEdge`. -/
def evEdge : Ev ε → Option ε
  | .visitEdge e => some e
  | .visitNode _ => none
  | .visitedNode _ => none
  | .popNode => none

/-- Tree edges, newest first: each goes from an already visited node to a new one. -/
def TreeEdges (G : Adj ε) (start : Nat) : List ε → Prop
  | [] => True
  | e :: es => G.ok e = true ∧ G.next e ∉ es.map G.next ++ [start] ∧
      (∃ n ∈ es.map G.next ++ [start], e ∈ G.edges n) ∧ TreeEdges G start es

structure DfsInv (G : Adj ε) (start : Nat) (s : DfsState ε) : Prop where
  vnodup : s.visited.Nodup
  startV : start ∈ s.visited
  reach : ∀ n ∈ s.visited, Reach (Acc G) start n
  stackV : ∀ p ∈ s.stack, p.1 ∈ s.visited
  stackNodup : (s.stack.map Prod.fst).Nodup
  chain : Walk (fun a b => Acc G b a) (s.stack.map Prod.fst)
  bottom : s.stack ≠ [] → (s.stack.map Prod.fst).getLast? = some start
  suffix : ∀ p ∈ s.stack, ∃ pre, G.edges p.1 = pre ++ p.2 ∧
      ∀ e ∈ pre, G.ok e = true → G.next e ∈ s.visited
  closed : ∀ n ∈ s.visited, n ∉ s.stack.map Prod.fst →
      ∀ e ∈ G.edges n, G.ok e = true → G.next e ∈ s.visited
  nodes : s.log.filterMap evNode = s.visited
  tree : TreeEdges G start (s.log.filterMap evEdge)
  treeV : (s.log.filterMap evEdge).map G.next ++ [start] = s.visited

theorem dfsInv_init (G : Adj ε) (start : Nat) : DfsInv G start (dfsInit G start) := by
  constructor <;> simp [dfsInit, Walk, List.filterMap_cons, evNode, evEdge, TreeEdges]
  exact Reach.refl

theorem walk_cons_of {α : Type} {R : α → α → Prop} {a b : α} {l : List α}
    (h : R a b) (hw : Walk R (b :: l)) : Walk R (a :: b :: l) := ⟨h, hw⟩

theorem walk_tail {α : Type} {R : α → α → Prop} {a : α} {l : List α}
    (hw : Walk R (a :: l)) : Walk R l := by
  cases l with
  | nil => trivial
  | cons b l => exact hw.2

theorem dfsInv_step {G : Adj ε} {start : Nat} {s : DfsState ε}
    (h : DfsInv G start s) : DfsInv G start (dfsStep G s) := by
  obtain ⟨visited, stack, log⟩ := s
  unfold dfsStep
  split
  · exact h
  · rename_i n rest heq
    simp only at heq
    subst heq
    obtain ⟨h1, h2, h3, h4, h5, h6, h7, h8, h9, h10, h11, h12⟩ := h
    simp only [List.map_cons] at h1 h2 h3 h4 h5 h6 h7 h8 h9 h10 h11 h12
    refine ⟨h1, h2, h3, ?_, ?_, ?_, ?_, ?_, ?_, ?_, ?_, ?_⟩
    · intro p hp; exact h4 p (List.mem_cons_of_mem _ hp)
    · exact (List.nodup_cons.1 h5).2
    · exact walk_tail h6
    · intro hne
      have := h7 (by simp)
      cases hr : rest with
      | nil => exact absurd hr hne
      | cons q qs =>
        subst hr
        simpa [List.getLast?_cons_cons] using this
    · intro p hp; exact h8 p (List.mem_cons_of_mem _ hp)
    · intro m hm hnot e he hok
      by_cases hmn : m = n
      · subst hmn
        obtain ⟨pre, hpre, hall⟩ := h8 (m, []) (by simp)
        simp only [List.append_nil] at hpre
        rw [hpre] at he
        exact hall e he hok
      · exact h9 m hm (by simp [hmn]; simpa using hnot) e he hok
    · simpa [List.filterMap_cons, evNode] using h10
    · simpa [List.filterMap_cons, evEdge] using h11
    · simpa [List.filterMap_cons, evEdge] using h12
  · rename_i n e es rest heq
    simp only at heq
    subst heq
    obtain ⟨h1, h2, h3, h4, h5, h6, h7, h8, h9, h10, h11, h12⟩ := h
    simp only [List.map_cons] at h1 h2 h3 h4 h5 h6 h7 h8 h9 h10 h11 h12
    have hn : n ∈ visited := h4 (n, e :: es) (by simp)
    have hsuf := h8 (n, e :: es) (by simp)
    obtain ⟨pre, hpre, hall⟩ := hsuf
    simp only at hpre
    have hemem : e ∈ G.edges n := by rw [hpre]; simp
    split
    · rename_i hok
      simp only [Bool.not_eq_true', ] at hok
      refine ⟨h1, h2, h3, ?_, h5, h6, ?_, ?_, ?_, h10, h11, h12⟩
      · intro p hp
        rcases List.mem_cons.1 hp with rfl | hp
        · exact hn
        · exact h4 p (List.mem_cons_of_mem _ hp)
      · intro _; exact h7 (by simp)
      · intro p hp
        rcases List.mem_cons.1 hp with rfl | hp
        · refine ⟨pre ++ [e], by simp [hpre], ?_⟩
          intro e' he' hok'
          rcases List.mem_append.1 he' with he' | he'
          · exact hall e' he' hok'
          · simp only [List.mem_singleton] at he'
            subst he'; simp [hok] at hok'
        · exact h8 p (List.mem_cons_of_mem _ hp)
      · exact h9
    · rename_i hok
      simp only [Bool.not_eq_true', Bool.not_eq_false] at hok
      split
      · rename_i hvis
        simp only at hvis
        refine ⟨h1, h2, h3, ?_, h5, h6, ?_, ?_, ?_, ?_, ?_, ?_⟩
        · intro p hp
          rcases List.mem_cons.1 hp with rfl | hp
          · exact hn
          · exact h4 p (List.mem_cons_of_mem _ hp)
        · intro _; exact h7 (by simp)
        · intro p hp
          rcases List.mem_cons.1 hp with rfl | hp
          · refine ⟨pre ++ [e], by simp [hpre], ?_⟩
            intro e' he' hok'
            rcases List.mem_append.1 he' with he' | he'
            · exact hall e' he' hok'
            · simp only [List.mem_singleton] at he'
              subst he'; exact hvis
          · exact h8 p (List.mem_cons_of_mem _ hp)
        · exact h9
        · simpa [List.filterMap_cons, evNode] using h10
        · simpa [List.filterMap_cons, evEdge] using h11
        · simpa [List.filterMap_cons, evEdge] using h12
      · rename_i hvis
        simp only at hvis
        have hacc : Acc G n (G.next e) := ⟨e, hemem, hok, rfl⟩
        refine ⟨?_, ?_, ?_, ?_, ?_, ?_, ?_, ?_, ?_, ?_, ?_, ?_⟩
        · exact List.nodup_cons.2 ⟨hvis, h1⟩
        · exact List.mem_cons_of_mem _ h2
        · intro m hm
          rcases List.mem_cons.1 hm with rfl | hm
          · exact Reach.tail (h3 n hn) hacc
          · exact h3 m hm
        · intro p hp
          rcases List.mem_cons.1 hp with rfl | hp
          · exact List.mem_cons_self
          rcases List.mem_cons.1 hp with rfl | hp
          · exact List.mem_cons_of_mem _ hn
          · exact List.mem_cons_of_mem _ (h4 p (List.mem_cons_of_mem _ hp))
        · simp only [List.map_cons]
          refine List.nodup_cons.2 ⟨?_, h5⟩
          intro hmem
          apply hvis
          rcases List.mem_cons.1 hmem with h | h
          · rw [h]; exact hn
          · obtain ⟨p, hp, hpe⟩ := List.mem_map.1 h
            rw [← hpe]; exact h4 p (List.mem_cons_of_mem _ hp)
        · exact ⟨hacc, h6⟩
        · intro _
          have := h7 (by simp)
          simpa [List.getLast?_cons_cons] using this
        · intro p hp
          rcases List.mem_cons.1 hp with rfl | hp
          · exact ⟨[], by simp, by simp⟩
          rcases List.mem_cons.1 hp with rfl | hp
          · refine ⟨pre ++ [e], by simp [hpre], ?_⟩
            intro e' he' hok'
            rcases List.mem_append.1 he' with he' | he'
            · exact List.mem_cons_of_mem _ (hall e' he' hok')
            · simp only [List.mem_singleton] at he'
              subst he'; exact List.mem_cons_self
          · obtain ⟨pre', hp1, hp2⟩ := h8 p (List.mem_cons_of_mem _ hp)
            exact ⟨pre', hp1, fun e' he' hok' => List.mem_cons_of_mem _ (hp2 e' he' hok')⟩
        · intro m hm hnot e' he' hok'
          rcases List.mem_cons.1 hm with rfl | hm
          · simp at hnot
          · refine List.mem_cons_of_mem _ (h9 m hm ?_ e' he' hok')
            intro hc
            apply hnot
            simp only [List.map_cons]
            exact List.mem_cons_of_mem _ hc
        · simp only [List.filterMap_cons, evNode, h10]
        · simp only [List.filterMap_cons, evEdge]
          refine ⟨hok, ?_, ⟨n, ?_, hemem⟩, h11⟩
          · rw [h12]; exact hvis
          · rw [h12]; exact hn
        · simp only [List.filterMap_cons, evEdge, List.map_cons, List.cons_append]
          rw [h12]

theorem dfsIter_inv {G : Adj ε} {start : Nat} (k : Nat) {s : DfsState ε}
    (h : DfsInv G start s) : DfsInv G start (dfsIter G k s) := by
  induction k generalizing s with
  | zero => exact h
  | succ k ih => exact ih (dfsInv_step h)

/-- Any property kept by a step is kept by any number of steps. -/
theorem dfsIter_induct {G : Adj ε} (P : DfsState ε → Prop)
    (hstep : ∀ s, P s → P (dfsStep G s)) (k : Nat) {s : DfsState ε} (h : P s) :
    P (dfsIter G k s) := by
  induction k generalizing s with
  | zero => exact h
  | succ k ih => exact ih (hstep s h)

/-! ### Termination -/

/-- Work left: edges still on the stack plus everything about unvisited nodes. -/
def dfsWork (G : Adj ε) (univ : List Nat) (s : DfsState ε) : Nat :=
  (s.stack.map fun p => p.2.length + 1).sum +
  ((univ.filter fun n => decide (n ∉ s.visited)).map fun n => (G.edges n).length + 1).sum

theorem sum_filter_remove (f : Nat → Nat) (univ vis : List Nat) (x : Nat)
    (hx : x ∈ univ) (hv : x ∉ vis) :
    ((univ.filter fun n => decide (n ∉ x :: vis)).map f).sum + f x ≤
      ((univ.filter fun n => decide (n ∉ vis)).map f).sum := by
  induction univ with
  | nil => simp at hx
  | cons a l ih =>
    have hmono : ∀ l : List Nat, ((l.filter fun n => decide (n ∉ x :: vis)).map f).sum ≤
        ((l.filter fun n => decide (n ∉ vis)).map f).sum := by
      intro l
      induction l with
      | nil => simp
      | cons b l ihl =>
        by_cases hb : b ∈ vis
        · have : b ∈ x :: vis := List.mem_cons_of_mem _ hb
          simp only [List.filter_cons, hb, this, not_true_eq_false, decide_false]
          simpa using ihl
        · by_cases hbx : b = x
          · subst hbx
            simp only [List.filter_cons, hb, List.mem_cons_self, not_true_eq_false,
              decide_false, not_false_eq_true, decide_true, ↓reduceIte, List.map_cons,
              List.sum_cons]
            have := ihl
            simp only [Bool.false_eq_true, ↓reduceIte]
            omega
          · have : b ∉ x :: vis := by simp [hbx, hb]
            simp only [List.filter_cons, hb, this, not_false_eq_true, decide_true, ↓reduceIte,
              List.map_cons, List.sum_cons]
            have := ihl
            omega
    by_cases hax : a = x
    · subst hax
      simp only [List.filter_cons, hv, List.mem_cons_self, not_true_eq_false, decide_false,
        not_false_eq_true, decide_true, ↓reduceIte, List.map_cons, List.sum_cons]
      have := hmono l
      simp only [Bool.false_eq_true, ↓reduceIte]
      omega
    · have hxl : x ∈ l := by
        rcases List.mem_cons.1 hx with h | h
        · exact absurd h.symm hax
        · exact h
      have := ih hxl
      by_cases hav : a ∈ vis
      · have h2 : a ∈ x :: vis := List.mem_cons_of_mem _ hav
        simp only [List.filter_cons, hav, h2, not_true_eq_false, decide_false]
        simpa using this
      · have h2 : a ∉ x :: vis := by simp [hax, hav]
        simp only [List.filter_cons, hav, h2, not_false_eq_true, decide_true, ↓reduceIte,
          List.map_cons, List.sum_cons]
        omega

/-- The accepted edges of `univ` stay inside `univ`. -/
def Closed (G : Adj ε) (univ : List Nat) : Prop :=
  ∀ n ∈ univ, ∀ e ∈ G.edges n, G.ok e = true → G.next e ∈ univ

theorem reach_univ {G : Adj ε} {univ : List Nat} (hc : Closed G univ) {a b : Nat}
    (ha : a ∈ univ) (h : Reach (Acc G) a b) : b ∈ univ := by
  induction h with
  | refl => exact ha
  | tail _ hs ih =>
    obtain ⟨e, he, hok, rfl⟩ := hs
    exact hc _ ih e he hok

theorem dfsWork_step {G : Adj ε} {univ : List Nat} {start : Nat} {s : DfsState ε}
    (hc : Closed G univ) (hs : start ∈ univ) (h : DfsInv G start s)
    (hne : s.stack ≠ []) : dfsWork G univ (dfsStep G s) + 1 ≤ dfsWork G univ s := by
  obtain ⟨visited, stack, log⟩ := s
  simp only at hne
  unfold dfsStep dfsWork
  split
  · rename_i heq; exact absurd heq hne
  · rename_i n rest heq
    simp only at heq
    subst heq
    simp only [List.map_cons, List.sum_cons, List.length_nil]
    omega
  · rename_i n e es rest heq
    simp only at heq
    subst heq
    split
    · simp only [List.map_cons, List.sum_cons, List.length_cons]; omega
    · rename_i hok
      simp only [Bool.not_eq_true', Bool.not_eq_false] at hok
      split
      · simp only [List.map_cons, List.sum_cons, List.length_cons]; omega
      · rename_i hvis
        simp only at hvis
        have hn : n ∈ univ := reach_univ hc hs (h.reach n (h.stackV (n, e :: es) (by simp)))
        have hemem : e ∈ G.edges n := by
          obtain ⟨pre, hpre, _⟩ := h.suffix (n, e :: es) (by simp)
          simp only at hpre
          rw [hpre]; simp
        have hx : G.next e ∈ univ := hc n hn e hemem hok
        have := sum_filter_remove (fun n => (G.edges n).length + 1) univ visited (G.next e) hx hvis
        simp only [List.map_cons, List.sum_cons, List.length_cons]
        omega

theorem dfsIter_stack_empty {G : Adj ε} {univ : List Nat} {start : Nat} (hc : Closed G univ)
    (hs : start ∈ univ) (k : Nat) {s : DfsState ε} (h : DfsInv G start s)
    (hk : dfsWork G univ s ≤ k) : (dfsIter G k s).stack = [] := by
  induction k generalizing s with
  | zero =>
    cases hst : s.stack with
    | nil => simpa [dfsIter] using hst
    | cons p l =>
      have : 0 < dfsWork G univ s := by simp [dfsWork, hst]; omega
      omega
  | succ k ih =>
    simp only [dfsIter]
    by_cases hst : s.stack = []
    · have hfix : dfsStep G s = s := by unfold dfsStep; rw [hst]
      rw [hfix]
      have h0 : ∀ j, (dfsIter G j s).stack = [] := by
        intro j
        induction j with
        | zero => exact hst
        | succ j ihj => simp only [dfsIter, hfix]; exact ihj
      exact h0 k
    · have := dfsWork_step hc hs h hst
      exact ih (dfsInv_step h) (by omega)

theorem dfsWork_init_le (G : Adj ε) (univ : List Nat) (start : Nat) (hs : start ∈ univ) :
    dfsWork G univ (dfsInit G start) ≤ dfsFuel G univ := by
  have := sum_filter_remove (fun n => (G.edges n).length + 1) univ [] start hs (by simp)
  simp only [dfsWork, dfsInit, dfsFuel, List.map_cons, List.map_nil, List.sum_cons, List.sum_nil]
  have h2 : (univ.filter fun n => decide (n ∉ ([] : List Nat))) = univ := by
    apply List.filter_eq_self.2; simp
  rw [h2] at this
  simp only [List.mem_singleton] at this ⊢
  omega

theorem dfsRun_stack {G : Adj ε} {univ : List Nat} {start : Nat} (hc : Closed G univ)
    (hs : start ∈ univ) : (dfsRun G univ start).stack = [] :=
  dfsIter_stack_empty hc hs _ (dfsInv_init G start) (dfsWork_init_le G univ start hs)

theorem dfsRun_inv (G : Adj ε) (univ : List Nat) (start : Nat) :
    DfsInv G start (dfsRun G univ start) :=
  dfsIter_inv _ (dfsInv_init G start)

/-- The visited set of a complete traversal is the reachable set. -/
theorem dfsRun_visited {G : Adj ε} {univ : List Nat} {start : Nat} (hc : Closed G univ)
    (hs : start ∈ univ) (n : Nat) :
    n ∈ (dfsRun G univ start).visited ↔ Reach (Acc G) start n := by
  have hinv := dfsRun_inv G univ start
  have hst := dfsRun_stack hc hs
  constructor
  · exact hinv.reach n
  · intro h
    induction h with
    | refl => exact hinv.startV
    | tail _ hstep ih =>
      obtain ⟨e, he, hok, rfl⟩ := hstep
      exact hinv.closed _ ih (by simp [hst]) e he hok

theorem dfsEvents_nodes (G : Adj ε) (univ : List Nat) (start : Nat) :
    (dfsEvents G univ start).filterMap evNode = (dfsRun G univ start).visited.reverse := by
  unfold dfsEvents
  rw [List.filterMap_reverse, (dfsRun_inv G univ start).nodes]

end Verif.Proofs

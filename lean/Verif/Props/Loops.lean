import Verif.Proofs.Cycle

/-!
Property theorems C11-C13: combinational loop detection, for every netlist produced by any
history of calls.
-/
set_option linter.unusedSimpArgs false
namespace Verif.Props
open Verif.Spec Verif.Model Verif.Proofs

theorem acc_comb_eq {net : NetGraph} (hw : NetWF net) :
    Acc (fwdAdj net (combPred net)) = CombStep net := by
  funext a b; exact propext (acc_comb hw a b)

theorem simpleCycle_target {R : Nat → Nat → Prop} {P : Nat → Prop} (hP : ∀ a b, R a b → P b)
    {c : List Nat} (h : SimpleCycle R c) : ∀ x ∈ c, P x := by
  obtain ⟨hne, hw, hc, hnd⟩ := h
  clear hnd
  obtain ⟨a, l, rfl⟩ := List.exists_cons_of_ne_nil hne
  have ha : P a := by
    have := List.getLast?_eq_some_getLast hne
    exact hP _ _ (hc a _ rfl this)
  clear hc hne
  induction l generalizing a with
  | nil => intro x hx; simp at hx; exact hx ▸ ha
  | cons b l ih =>
    intro x hx
    rcases List.mem_cons.1 hx with rfl | hx
    · exact ha
    · exact ih b hw.2 (hP _ _ hw.1) x hx

/-- C11: every reported loop is a simple cycle of enabled edges through live non-register nodes,
written starting with its lowest-numbered node. -/
theorem loops_are_genuine (net : NetGraph) (hr : Reachable net) :
    ∀ c ∈ combLoops net, SimpleCycle (CombStep net) c ∧
      (∀ x ∈ c, x ∈ net.g.nodes ∧ net.kind x ≠ .state) ∧
      (∀ a, c.head? = some a → ∀ x ∈ c, net.id a ≤ net.id x) := by
  have hw := reachable_wf hr
  intro c hc
  have hc' := (sortCycles_perm net.id _).mem_iff.1 hc
  obtain ⟨h1, _⟩ := detectLoop_spec hw (combPred net) net.g.nodes [] [] (fun _ h => h) hw.nodup
    (by simp) (by simp) List.nodup_nil
  obtain ⟨hg, hlive⟩ := h1 c hc'
  have hcyc := hg.cyc
  rw [acc_comb_eq hw] at hcyc
  exact ⟨hcyc, fun x hx => ⟨hlive x hx,
    simpleCycle_target (P := fun x => net.kind x ≠ .state) (fun a b h => h.2) hcyc x hx⟩, hg.least⟩

/-- C12 (partial): every node lying on a combinational cycle appears in some reported loop; in
particular the report is empty exactly when there is no combinational cycle.

Missing from the full statement: that all simple cycles are reported, as the header and the class
comment say. This fails, see `some_loops_are_missed`. -/
theorem loops_cover_cycles_partial (net : NetGraph) (hr : Reachable net) :
    (∀ n ∈ net.g.nodes, OnCycle (CombStep net) n → ∃ c ∈ combLoops net, n ∈ c) ∧
    (combLoops net = [] ↔ ∀ n ∈ net.g.nodes, ¬ OnCycle (CombStep net) n) := by
  have hw := reachable_wf hr
  obtain ⟨_, _, h3, _⟩ := detectLoop_spec hw (combPred net) net.g.nodes [] [] (fun _ h => h)
    hw.nodup (by simp) (by simp) List.nodup_nil
  rw [acc_comb_eq hw] at h3
  have hcov : ∀ n ∈ net.g.nodes, OnCycle (CombStep net) n → ∃ c ∈ combLoops net, n ∈ c := by
    intro n hn hon
    obtain ⟨c, hc, hx⟩ := h3 n hn hon
    exact ⟨c, (sortCycles_perm net.id _).mem_iff.2 hc, hx⟩
  refine ⟨hcov, ?_, ?_⟩
  · intro he n hn hon
    obtain ⟨c, hc, _⟩ := hcov n hn hon
    rw [he] at hc; cases hc
  · intro hno
    cases hl : combLoops net with
    | nil => rfl
    | cons c cs =>
      exfalso
      have hc : c ∈ combLoops net := by rw [hl]; simp
      obtain ⟨hcyc, hlive, _⟩ := loops_are_genuine net hr c hc
      obtain ⟨a, l, rfl⟩ := List.exists_cons_of_ne_nil hcyc.nonempty
      refine hno a (hlive a (by simp)).1 ⟨_, ?_, hcyc.close a _ rfl
        (List.getLast?_eq_some_getLast hcyc.nonempty)⟩
      have hwalk := hcyc.walk
      have hlast : ∀ (l : List Nat) (a : Nat) (h : a :: l ≠ []), Walk (CombStep net) (a :: l) →
          Reach (CombStep net) a ((a :: l).getLast h) := by
        intro l
        induction l with
        | nil => intro a h _; exact Reach.refl
        | cons b l ih =>
          intro a h hw
          rw [List.getLast_cons (by simp)]
          exact reach_head hw.1 (ih b (by simp) hw.2)
      exact hlast l a _ hwalk

/-- C13: the reported loops are pairwise distinct; with unique node IDs they are strictly sorted
lexicographically by node ID, so the report does not depend on addresses or on how `std::sort`
orders equivalent elements. -/
theorem loops_canonical (net : NetGraph) (hr : Reachable net) :
    (combLoops net).Nodup ∧
    (UniqueIds net → (combLoops net).Pairwise fun a b => a.map net.id < b.map net.id) := by
  have hw := reachable_wf hr
  obtain ⟨h1, _, _, h4⟩ := detectLoop_spec hw (combPred net) net.g.nodes [] [] (fun _ h => h)
    hw.nodup (by simp) (by simp) List.nodup_nil
  refine ⟨(sortCycles_perm net.id _).nodup_iff.2 h4, fun hu => ?_⟩
  have hs := sortCycles_sorted net.id (detectLoop net (combPred net) net.g.nodes [] []) (by
    have := h4
    refine List.Pairwise.imp_of_mem ?_ this
    intro a b ha hb hab hc
    exact hab (map_id_inj hu (h1 a ha).2 (h1 b hb).2 hc))
  refine hs.imp ?_
  intro a b h
  clear hs
  induction a generalizing b with
  | nil =>
    cases b with
    | nil => simp [lexLess] at h
    | cons y b => exact List.Lex.nil
  | cons x a ih =>
    cases b with
    | nil => simp [lexLess] at h
    | cons y b =>
      simp only [lexLess] at h
      split at h
      · exact List.Lex.rel (by assumption)
      · split at h
        · cases h
        · have : net.id x = net.id y := by omega
          simp only [List.map_cons, this]
          exact List.Lex.cons (ih h)

theorem call_ids {net net' : NetGraph} {op : NetOp} (hop : op ≠ .resetIds)
    (h : net.call op = some net') (hlt : ∀ n ∈ net.g.nodes, net.id n < net.nextID ∧
      n < net.g.nextNode) (hu : UniqueIds net) :
    (∀ n ∈ net'.g.nodes, net'.id n < net'.nextID ∧ n < net'.g.nextNode) ∧ UniqueIds net' := by
  cases op with
  | addNode d =>
    simp only [NetGraph.call, NetOp.gop, DGraph.call, DGraph.addNode, DGraph.upd,
      Option.some.injEq] at h
    subst h
    have hcase : ∀ n ∈ net.g.nodes ++ [net.g.nextNode], (n ∈ net.g.nodes ∧ n ≠ net.g.nextNode) ∨
        n = net.g.nextNode := by
      intro n hn
      rcases List.mem_append.1 hn with h | h
      · exact .inl ⟨h, by have := (hlt n h).2; omega⟩
      · simp at h; exact .inr h
    constructor
    · intro n hn
      rcases hcase n hn with ⟨h, hne⟩ | h
      · have := hlt n h
        simp only [hne, ↓reduceIte]; omega
      · subst h; simp
    · intro a ha b hb hab
      simp only at ha hb hab
      rcases hcase a ha with ⟨h1, hne1⟩ | h1 <;> rcases hcase b hb with ⟨h2, hne2⟩ | h2
      · simp only [hne1, hne2, ↓reduceIte] at hab; exact hu a h1 b h2 hab
      · have := hlt a h1
        subst h2; simp only [hne1, ↓reduceIte] at hab; omega
      · have := hlt b h2
        subst h1; simp only [hne2, ↓reduceIte] at hab; omega
      · rw [h1, h2]
  | resetIds => exact absurd rfl hop
  | setAttr e a => simp [NetGraph.call, NetOp.gop] at h; subst h; exact ⟨hlt, hu⟩
  | addBlackBox p => simp [NetGraph.call, NetOp.gop] at h; subst h; exact ⟨hlt, hu⟩
  | addEdge s t =>
    simp only [NetGraph.call, NetOp.gop] at h
    cases hc : net.g.call (.addEdge s t) with
    | none => rw [hc] at h; cases h
    | some r =>
      have : r.1.nodes = net.g.nodes ∧ r.1.nextNode = net.g.nextNode := by
        simp only [DGraph.call] at hc
        split at hc
        · simp only [Option.some.injEq] at hc
          subst hc
          simp only [DGraph.addEdge]
          split <;> simp [DGraph.addNewEdge, DGraph.upd]
        · cases hc
      rw [hc] at h; simp at h; subst h
      simp only [UniqueIds, this]; exact ⟨hlt, hu⟩
  | addNewEdge s t =>
    simp only [NetGraph.call, NetOp.gop] at h
    cases hc : net.g.call (.addNewEdge s t) with
    | none => rw [hc] at h; cases h
    | some r =>
      have : r.1.nodes = net.g.nodes ∧ r.1.nextNode = net.g.nextNode := by
        simp only [DGraph.call] at hc
        split at hc
        · simp only [Option.some.injEq] at hc
          subst hc
          simp [DGraph.addNewEdge, DGraph.upd]
        · cases hc
      rw [hc] at h; simp at h; subst h
      simp only [UniqueIds, this]; exact ⟨hlt, hu⟩
  | removeEdge s t =>
    simp only [NetGraph.call, NetOp.gop] at h
    cases hc : net.g.call (.removeEdge s t) with
    | none => rw [hc] at h; cases h
    | some r =>
      have : r.1.nodes = net.g.nodes ∧ r.1.nextNode = net.g.nextNode := by
        simp only [DGraph.call] at hc
        split at hc
        · simp only [DGraph.removeEdge] at hc
          split at hc
          · split at hc
            · simp only [Option.map_some, Option.some.injEq] at hc; subst hc; simp [DGraph.upd]
            · cases hc
          · simp only [Option.map_some, Option.some.injEq] at hc; subst hc; simp
        · cases hc
      rw [hc] at h; simp at h; subst h
      simp only [UniqueIds, this]; exact ⟨hlt, hu⟩
  | clearAllEdges n =>
    simp only [NetGraph.call, NetOp.gop] at h
    cases hc : net.g.call (.clearAllEdges n) with
    | none => rw [hc] at h; cases h
    | some r =>
      have : r.1.nodes = net.g.nodes ∧ r.1.nextNode = net.g.nextNode := by
        simp only [DGraph.call] at hc
        split at hc
        · cases hx : net.g.clearAllEdges n with
          | none => rw [hx] at hc; cases hc
          | some g1 =>
            rw [hx] at hc; simp at hc; subst hc
            exact clearAllEdges_nodes hx
        · cases hc
      rw [hc] at h; simp at h; subst h
      simp only [UniqueIds, this]; exact ⟨hlt, hu⟩
  | removeNode n =>
    simp only [NetGraph.call, NetOp.gop] at h
    cases hc : net.g.call (.removeNode n) with
    | none => rw [hc] at h; cases h
    | some r =>
      have : (∀ m ∈ r.1.nodes, m ∈ net.g.nodes) ∧ r.1.nextNode = net.g.nextNode := by
        simp only [DGraph.call, DGraph.removeNode] at hc
        split at hc
        · cases hx : net.g.clearAllEdges n with
          | none => rw [hx] at hc; cases hc
          | some g1 =>
            rw [hx] at hc; simp at hc; subst hc
            have := clearAllEdges_nodes hx
            refine ⟨fun m hm => ?_, this.2⟩
            rw [← this.1]; exact List.mem_of_mem_erase hm
        · simp at hc; subst hc; simp
      rw [hc] at h; simp at h; subst h
      refine ⟨fun m hm => ?_, fun a ha b hb hab => hu a (this.1 a ha) b (this.1 b hb) hab⟩
      simp only [this.2]; exact hlt m (this.1 m hm)
where
  removeFrom_nodes {g g' : DGraph} {n : Nat} {ss : List Nat} (h : g.removeFrom n ss = some g') :
      g'.nodes = g.nodes ∧ g'.nextNode = g.nextNode := by
    induction ss generalizing g with
    | nil => simp [DGraph.removeFrom] at h; subst h; simp
    | cons s ss ih =>
      simp only [DGraph.removeFrom] at h
      cases hx : g.removeEdge s n with
      | none => rw [hx] at h; cases h
      | some r =>
        rw [hx] at h
        obtain ⟨h1, h2⟩ := ih h
        have : r.1.nodes = g.nodes ∧ r.1.nextNode = g.nextNode := by
          simp only [DGraph.removeEdge] at hx
          split at hx
          · split at hx
            · simp at hx; subst hx; simp [DGraph.upd]
            · cases hx
          · simp at hx; subst hx; simp
        rw [h1, h2]; exact this
  dropIn_nodes (g : DGraph) (n : Nat) (es : List Edge) :
      (g.dropInEdges n es).nodes = g.nodes ∧ (g.dropInEdges n es).nextNode = g.nextNode := by
    induction es generalizing g with
    | nil => simp [DGraph.dropInEdges]
    | cons e es ih => simp only [DGraph.dropInEdges]; rw [(ih _).1, (ih _).2]; simp [DGraph.upd]
  clearAllEdges_nodes {g g' : DGraph} {n : Nat} (h : g.clearAllEdges n = some g') :
      g'.nodes = g.nodes ∧ g'.nextNode = g.nextNode := by
    simp only [DGraph.clearAllEdges] at h
    split at h
    · cases h
    · rename_i g3 hx
      split at h
      · simp at h; subst h
        have h1 := removeFrom_nodes hx
        rw [h1.1, h1.2]
        simp only [DGraph.upd]
        exact dropIn_nodes _ _ _
      · cases h

/-- C13: node IDs are unique in every netlist whose history does not reset the ID counter while
nodes exist. -/
theorem ids_unique (ops : List NetOp) (net : NetGraph) (h : NetGraph.calls {} ops = some net)
    (hno : NetOp.resetIds ∉ ops) : UniqueIds net := by
  have gen : ∀ (ops : List NetOp) (n0 : NetGraph), NetOp.resetIds ∉ ops →
      NetGraph.calls n0 ops = some net →
      (∀ n ∈ n0.g.nodes, n0.id n < n0.nextID ∧ n < n0.g.nextNode) → UniqueIds n0 →
      UniqueIds net := by
    intro ops
    induction ops with
    | nil => intro n0 _ h _ hu; simp [NetGraph.calls] at h; exact h ▸ hu
    | cons op ops ih =>
      intro n0 hno h hlt hu
      simp only [NetGraph.calls] at h
      cases hc : n0.call op with
      | none => rw [hc] at h; cases h
      | some n1 =>
        rw [hc] at h
        simp only [List.mem_cons, not_or] at hno
        obtain ⟨h1, h2⟩ := call_ids (fun h => hno.1 h.symm) hc hlt hu
        exact ih n1 hno.2 h h1 h2
  exact gen ops {} hno h (by simp) (fun a ha => by simp at ha)

/-- C13, disagreement: building twice in one process into the same graph resets the counter
(source/NetlistBuilder.cpp:41) and yields two nodes with the same ID. -/
theorem ids_collide_after_second_build :
    ∃ net, Reachable net ∧ ¬ UniqueIds net := by
  refine ⟨(NetGraph.calls {} [.addNode .merge, .resetIds, .addNode .merge]).getD {},
    ⟨[.addNode .merge, .resetIds, .addNode .merge], rfl⟩, fun h => ?_⟩
  exact absurd (h 0 (by decide) 1 (by decide) (by decide)) (by decide)

/-- Three merge nodes with 0 -> 1 -> 2 -> 0 and 0 -> 2. -/
def chordOps : List NetOp :=
  [.addNode .merge, .addNode .merge, .addNode .merge,
   .addEdge 0 1, .addEdge 1 2, .addEdge 2 0, .addEdge 0 2]

def chordNet : NetGraph := (NetGraph.calls {} chordOps).getD {}

theorem chordNet_reachable : Reachable chordNet := ⟨chordOps, rfl⟩

/-- Non-vacuity: the loop through all three nodes is reported. -/
example : combLoops chordNet = [[0, 1, 2]] := by decide

example : UniqueIds chordNet := ids_unique chordOps chordNet rfl (by decide)

/-- C12, disagreement: the simple combinational cycle 0 -> 2 -> 0 is not reported, although the
class comment promises all cycles (source/CycleDetector.hpp:58, 67). -/
theorem some_loops_are_missed :
    ∃ net, Reachable net ∧ UniqueIds net ∧
      ∃ c, SimpleCycle (CombStep net) c ∧ ∀ d ∈ combLoops net, ¬ d.Perm c := by
  refine ⟨chordNet, chordNet_reachable, ids_unique chordOps chordNet rfl (by decide), [0, 2], ?_, ?_⟩
  · refine ⟨by simp, ⟨⟨⟨by decide, ⟨3, 0, 2⟩, by decide, rfl, by decide⟩, by decide⟩, trivial⟩, ?_,
      by decide⟩
    intro a b ha hb
    cases ha; cases hb
    exact ⟨⟨by decide, ⟨2, 2, 0⟩, by decide, rfl, by decide⟩, by decide⟩
  · intro d hd hp
    have : combLoops chordNet = [[0, 1, 2]] := by decide
    rw [this] at hd
    simp at hd
    subst hd
    have := hp.length_eq
    simp at this

/-- Applied to this netlist. -/
example : (combLoops chordNet).Nodup ∧
    (combLoops chordNet).Pairwise (fun a b => a.map chordNet.id < b.map chordNet.id) :=
  ⟨(loops_canonical chordNet ⟨chordOps, rfl⟩).1, (loops_canonical chordNet ⟨chordOps, rfl⟩).2
    (ids_unique chordOps chordNet rfl (by decide))⟩

end Verif.Props

import Verif.Proofs.Sens

/-!
Property theorems C06-C10, C14, C15: path, fan-out, fan-in, constant-driver and sensitivity
queries, for every netlist produced by any history of calls (`Reachable net`).
-/
set_option linter.unusedSimpArgs false
namespace Verif.Props
open Verif.Spec Verif.Model Verif.Proofs

/-- C06/C07: the path query never fails an assertion; for distinct end points it returns a simple
path of enabled edges from `s` to `t` when `t` is reachable, and the empty path otherwise. -/
theorem path_sound_complete (net : NetGraph) (hr : Reachable net) (s t : Nat)
    (hs : s ∈ net.g.nodes) (hne : s ≠ t) :
    ∃ p, findPath net s t = some p ∧
      (p ≠ [] → SimplePath (Step net) s t p) ∧
      (p ≠ [] ↔ Reach (Step net) s t) := by
  have hw := reachable_wf hr
  obtain ⟨es, ht, hm, hns, heq⟩ := findPathWith_eq hw (enabledPred net) s t hs
  refine ⟨_, heq, ?_, ?_⟩
  · intro hp
    split at hp
    · rename_i hte
      rw [if_pos hte]
      obtain ⟨⟨h1, h2, h3, h4⟩, _⟩ := treePath_spec hw es ht t (List.mem_append_left _ hte)
      refine ⟨h1, h2, ?_, h4⟩
      have : Acc (fwdAdj net (enabledPred net)) = Step net := by
        funext a b; exact propext (acc_enabled hw a b)
      rw [← this]; exact h3
    · exact absurd rfl hp
  · have h1 := hm t
    rw [reach_iff (acc_enabled hw)] at h1
    rw [← h1]
    constructor
    · intro hp
      split at hp
      · rename_i hte; exact List.mem_append_left _ hte
      · exact absurd rfl hp
    · intro hmem
      have hte : t ∈ es.map Edge.tgt := by
        rcases List.mem_append.1 hmem with h | h
        · exact h
        · simp at h; exact absurd h.symm hne
      rw [if_pos hte]
      obtain ⟨⟨h1, _⟩, _⟩ := treePath_spec hw es ht t hmem
      intro hc; rw [hc] at h1; cases h1

/-- C08: the same for the combinational path query. -/
theorem comb_path_sound_complete (net : NetGraph) (hr : Reachable net) (s t : Nat)
    (hs : s ∈ net.g.nodes) (hne : s ≠ t) :
    ∃ p, findComb net s t = some p ∧
      (p ≠ [] → SimplePath (CombStep net) s t p ∧ ∀ x ∈ p.tail, net.kind x ≠ .state) ∧
      (p ≠ [] ↔ Reach (CombStep net) s t) := by
  have hw := reachable_wf hr
  obtain ⟨es, ht, hm, hns, heq⟩ := findPathWith_eq hw (combPred net) s t hs
  refine ⟨_, heq, ?_, ?_⟩
  · intro hp
    split at hp
    · rename_i hte
      rw [if_pos hte]
      obtain ⟨⟨h1, h2, h3, h4⟩, _⟩ := treePath_spec hw es ht t (List.mem_append_left _ hte)
      have : Acc (fwdAdj net (combPred net)) = CombStep net := by
        funext a b; exact propext (acc_comb hw a b)
      rw [this] at h3
      refine ⟨⟨h1, h2, h3, h4⟩, ?_⟩
      clear h1 h2 h4
      generalize treePath s es t = l at h3
      induction l with
      | nil => simp
      | cons a l ih =>
        cases l with
        | nil => simp
        | cons b l =>
          intro x hx
          rcases List.mem_cons.1 hx with rfl | hx
          · exact h3.1.2
          · exact ih h3.2 x hx
    · exact absurd rfl hp
  · have h1 := hm t
    rw [reach_iff (acc_comb hw)] at h1
    rw [← h1]
    constructor
    · intro hp
      split at hp
      · rename_i hte; exact List.mem_append_left _ hte
      · exact absurd rfl hp
    · intro hmem
      have hte : t ∈ es.map Edge.tgt := by
        rcases List.mem_append.1 hmem with h | h
        · exact h
        · simp at h; exact absurd h.symm hne
      rw [if_pos hte]
      obtain ⟨⟨h1, _⟩, _⟩ := treePath_spec hw es ht t hmem
      intro hc; rw [hc] at h1; cases h1

/-- C07, disagreement: asking for a path from a node to itself always gives the empty path, so
the one-node path that `buildPath` (source/PathFinder.cpp:54-56) intends is never returned, even
when the node lies on a cycle. -/
theorem path_to_self_is_empty (net : NetGraph) (hr : Reachable net) (s : Nat)
    (hs : s ∈ net.g.nodes) : findPath net s s = some [] ∧ findComb net s s = some [] := by
  have hw := reachable_wf hr
  constructor
  · obtain ⟨es, _, _, hns, heq⟩ := findPathWith_eq hw (enabledPred net) s s hs
    unfold findPath; rw [heq, if_neg hns]
  · obtain ⟨es, _, _, hns, heq⟩ := findPathWith_eq hw (combPred net) s s hs
    unfold findComb; rw [heq, if_neg hns]

/-- C09: the fan-out query returns without duplicates exactly the nodes reachable over enabled
edges that do not enter a register, the start included. -/
theorem combFanOut_exact (net : NetGraph) (hr : Reachable net) (n : Nat) (hn : n ∈ net.g.nodes) :
    (combFanOut net n).Nodup ∧
    ∀ m, m ∈ combFanOut net n ↔ Reach (CombStep net) n m := by
  have hw := reachable_wf hr
  unfold combFanOut
  rw [collect_eq, dfsEvents_nodes]
  refine ⟨List.pairwise_reverse.2 ((dfsRun_inv _ _ _).vnodup.imp fun h => h.symm), fun m => ?_⟩
  rw [List.mem_reverse, dfsRun_visited (closed_fwd hw _) hn, reach_iff (acc_comb hw)]

/-- C10: the fan-in query returns without duplicates exactly the nodes from which the start is
reachable over enabled edges that do not leave a register, the start included. -/
theorem combFanIn_exact (net : NetGraph) (hr : Reachable net) (n : Nat) (hn : n ∈ net.g.nodes) :
    (combFanIn net n).Nodup ∧
    ∀ m, m ∈ combFanIn net n ↔ Reach (CombBackStep net) m n := by
  have hw := reachable_wf hr
  unfold combFanIn
  rw [collect_eq, dfsEvents_nodes]
  refine ⟨List.pairwise_reverse.2 ((dfsRun_inv _ _ _).vnodup.imp fun h => h.symm), fun m => ?_⟩
  rw [List.mem_reverse, dfsRun_visited (closed_bwd hw _) hn,
    reach_iff (S := fun a b => CombBackStep net b a) (fun a b => acc_combBack hw b a),
    reach_swap_iff]

theorem comb_reach_back {net : NetGraph} {a b : Nat} (ha : net.kind a ≠ .state)
    (h : Reach (CombStep net) a b) : Reach (CombBackStep net) a b ∧ net.kind b ≠ .state := by
  induction h with
  | refl => exact ⟨Reach.refl, ha⟩
  | tail _ h ih => exact ⟨ih.1.tail ⟨h.1, ih.2⟩, h.2⟩

theorem back_reach_comb {net : NetGraph} {a b : Nat} (hb : net.kind b ≠ .state)
    (h : Reach (CombBackStep net) a b) : Reach (CombStep net) a b := by
  have h' := reach_swap h
  have : Reach (fun x y => CombStep net y x) b a ∧ net.kind a ≠ .state := by
    clear h
    induction h' with
    | refl => exact ⟨Reach.refl, hb⟩
    | tail _ h ih => exact ⟨ih.1.tail ⟨h.1, ih.2⟩, h.2⟩
  exact reach_swap_iff.1 this.1

/-- C10, duality: for non-register nodes, `m` is in the fan-out of `n` exactly when `n` is in the
fan-in of `m`. -/
theorem fan_in_out_dual (net : NetGraph) (hr : Reachable net) (n m : Nat)
    (hn : n ∈ net.g.nodes) (hm : m ∈ net.g.nodes)
    (hkn : net.kind n ≠ .state) (hkm : net.kind m ≠ .state) :
    m ∈ combFanOut net n ↔ n ∈ combFanIn net m := by
  rw [(combFanOut_exact net hr n hn).2, (combFanIn_exact net hr m hm).2]
  exact ⟨fun h => (comb_reach_back hkn h).1, fun h => back_reach_comb hkm h⟩

/-- What the loop of the constant-driver query computes. -/
theorem constLoop_spec (net : NetGraph) (node : Nat) (l acc : List Nat) :
    constLoop net node l acc =
      if ∃ p ∈ l, p ≠ node ∧ (net.kind p = .state ∨ (net.kind p = .port ∧ isDriven net p = false))
      then none
      else some (acc ++ l.filter fun c => c != node && net.kind c == .constant) := by
  induction l generalizing acc with
  | nil => simp [constLoop]
  | cons a l ih =>
    simp only [constLoop, List.mem_cons, exists_eq_or_imp]
    by_cases ha : a = node
    · simp [ha, ih, List.filter_cons]
    · simp only [ha, ↓reduceIte, not_false_eq_true, ne_eq, true_and]
      split
      · rename_i hk
        simp [hk, ih, List.filter_cons, ha]
      · rename_i hk
        simp [hk]
      · rename_i hk
        by_cases hd : isDriven net a = true
        · simp [hk, hd, ih, List.filter_cons, ha]
        · simp only [Bool.not_eq_true] at hd
          simp [hk, hd]
      · rename_i h1 h2 h3
        have : ((net.kind a) == .constant) = false := by
          simp only [beq_eq_false_iff_ne]; exact h1
        simp [eq_false h2, eq_false h3, ih, List.filter_cons, this]

/-- C14 (partial): a non-empty constant-driver report lists without duplicates exactly the
constants from which the node is reachable without leaving a register, and no port without
in-edges is among the node's fan-in. Conversely the report is empty only if there is no such
constant or some such port.

Missing from the full statement: that no register reaches the node, and that a port whose in-edges
are all disabled counts as undriven. Both fail, see `constant_drivers_ignore_registers` and
`constant_drivers_ignore_disabled`. -/
theorem constantDrivers_partial (net : NetGraph) (hr : Reachable net) (n : Nat)
    (hn : n ∈ net.g.nodes) :
    (constantDrivers net n ≠ [] →
      (constantDrivers net n).Nodup ∧
      (∀ c, c ∈ constantDrivers net n ↔
        c ≠ n ∧ net.kind c = .constant ∧ Reach (CombBackStep net) c n) ∧
      (∀ p, p ≠ n → net.kind p = .port → Reach (CombBackStep net) p n →
        (net.g.obj p).inE ≠ [])) ∧
    (constantDrivers net n = [] →
      (∀ c, c ≠ n → net.kind c = .constant → ¬ Reach (CombBackStep net) c n) ∨
      (∃ p, p ≠ n ∧ net.kind p = .port ∧ (net.g.obj p).inE = [] ∧
        Reach (CombBackStep net) p n)) := by
  obtain ⟨hnd, hmem⟩ := combFanIn_exact net hr n hn
  have hdr : ∀ p, isDriven net p = false ↔ (net.g.obj p).inE = [] := by
    intro p; cases h : (net.g.obj p).inE <;> simp [isDriven, h]
  have hns : ∀ p ∈ combFanIn net n, p ≠ n → net.kind p ≠ .state := by
    intro p hp hpn
    rw [hmem] at hp
    have h' := reach_swap hp
    cases h' with
    | refl => exact absurd rfl hpn
    | tail _ h => exact h.2
  unfold constantDrivers
  rw [constLoop_spec]
  by_cases hbad : ∃ p ∈ combFanIn net n, p ≠ n ∧
      (net.kind p = .state ∨ (net.kind p = .port ∧ isDriven net p = false))
  · rw [if_pos hbad]
    refine ⟨fun h => absurd rfl h, fun _ => .inr ?_⟩
    obtain ⟨p, hp, hpn, h | ⟨h1, h2⟩⟩ := hbad
    · exact absurd h (hns p hp hpn)
    · exact ⟨p, hpn, h1, (hdr p).1 h2, (hmem p).1 hp⟩
  · rw [if_neg hbad]
    simp only [List.nil_append]
    refine ⟨fun _ => ⟨hnd.sublist List.filter_sublist, ?_, ?_⟩, ?_⟩
    · intro c
      rw [List.mem_filter, hmem]
      simp only [bne_iff_ne, Bool.and_eq_true, beq_iff_eq, ne_eq]
      constructor
      · rintro ⟨h1, h2, h3⟩; exact ⟨h2, h3, h1⟩
      · rintro ⟨h1, h2, h3⟩; exact ⟨h3, h1, h2⟩
    · intro p hpn hk hreach hc
      exact hbad ⟨p, (hmem p).2 hreach, hpn, .inr ⟨hk, (hdr p).2 hc⟩⟩
    · intro he
      refine .inl fun c hcn hk hreach => ?_
      have : c ∈ (combFanIn net n).filter fun c => c != n && net.kind c == .constant := by
        rw [List.mem_filter]
        exact ⟨(hmem c).2 hreach, by simp [hcn, hk]⟩
      rw [he] at this; cases this

/-- C15: the sensitivity of a register is exactly its clocked in-edges, without duplicates. -/
theorem sensitivity_of_register (net : NetGraph) (hr : Reachable net) (n : Nat)
    (hk : net.kind n = .state) :
    (sensitivity net n).Nodup ∧
    ∀ s k, (s, k) ∈ sensitivity net n ↔ ClockedBy net n s k := by
  have hw := reachable_wf hr
  simp only [sensitivity, hk, ↓reduceIte]
  refine ⟨collectFromEdges_nodup _ _ _ List.nodup_nil, fun s k => ?_⟩
  rw [collectFromState_clocked hw]; simp

/-- C15: the sensitivity of any other node is the union over all registers entered by an enabled
edge from its combinational fan-out, without duplicates. -/
theorem sensitivity_of_comb (net : NetGraph) (hr : Reachable net) (n : Nat)
    (hn : n ∈ net.g.nodes) (hk : net.kind n ≠ .state) :
    (sensitivity net n).Nodup ∧
    ∀ s k, (s, k) ∈ sensitivity net n ↔ ∃ r, Feeds net n r ∧ ClockedBy net r s k :=
  sensitivity_comb (reachable_wf hr) n hn hk

/-! ### Concrete cases -/

def sState (p : String) : NodeData := .state p.toList p.toList {} ⟨0, 0⟩
def sPort (p : String) : NodeData := .port p.toList p.toList {} .input ⟨0, 0⟩

/-- clk(0) -posedge-> reg(1); in(2) -> assign(3) -> reg(1); reg(1) -> assign(4) -> assign(3);
const(5) -> assign(4); a disabled edge in(2) -> assign(4); a cycle 3 -> 6 -> 3. -/
def sampleOps : List NetOp :=
  [.addNode (sPort "clk"), .addNode (sState "r"), .addNode (sPort "in"),
   .addNode (.assignment {}), .addNode (.assignment {}), .addNode (.constant ['1'] 1 {}),
   .addNode .merge,
   .addEdge 0 1, .setAttr 0 { edgeKind := .posEdge },
   .addEdge 2 3, .addEdge 3 1, .addEdge 1 4, .addEdge 4 3, .addEdge 5 4,
   .addEdge 2 4, .setAttr 6 { disabled := true }, .addEdge 3 6, .addEdge 6 3]

def sampleNet : NetGraph := (NetGraph.calls {} sampleOps).getD {}

theorem sampleNet_eq : NetGraph.calls {} sampleOps = some sampleNet := rfl

/-- Non-vacuity for all theorems of this file. -/
theorem sampleNet_reachable : Reachable sampleNet := ⟨sampleOps, sampleNet_eq⟩

example : sampleNet.g.nodes = [0, 1, 2, 3, 4, 5, 6] := by decide
example : findPath sampleNet 2 6 = some [2, 3, 6] := by decide
example : findComb sampleNet 2 1 = some [] ∧ findPath sampleNet 2 1 = some [2, 3, 1] := by decide
example : combFanOut sampleNet 2 = [2, 3, 6] := by decide
example : combFanIn sampleNet 3 = [3, 2, 4, 5, 6] := by decide
example : sensitivity sampleNet 1 = [(0, .posEdge)] ∧ sensitivity sampleNet 2 = [(0, .posEdge)] := by
  decide
example : constantDrivers sampleNet 3 = [] ∧ constantDrivers sampleNet 4 = [5] := by decide

/-- C14, disagreement: in `sampleNet` the assignment 4 is fed by the register 1 through an enabled
edge, yet the constant-driver query reports it as tied to constant 5. The header
(include/netlist/NetlistGraph.hpp:132-138) promises an empty result. -/
theorem constant_drivers_ignore_registers :
    ∃ net, Reachable net ∧ ∃ n r, n ∈ net.g.nodes ∧ constantDrivers net n ≠ [] ∧
      net.kind r = .state ∧ Step net r n :=
  ⟨sampleNet, sampleNet_reachable, 4, 1, by decide, by decide, by decide,
    by decide, ⟨3, 1, 4⟩, by decide, rfl, by decide⟩

/-- const(0) -> assign(1), port(2) -> assign(1), and a disabled edge assign(3) -> port(2). -/
def disabledOps : List NetOp :=
  [.addNode (.constant ['1'] 1 {}), .addNode (.assignment {}), .addNode (sPort "in"),
   .addNode (.assignment {}), .addEdge 0 1, .addEdge 2 1, .addEdge 3 2,
   .setAttr 2 { disabled := true }]

/-- C14, disagreement: a port all of whose in-edges are disabled is treated as a pass-through, so
a node fed by it is still reported as tied off. -/
theorem constant_drivers_ignore_disabled :
    ∃ net, Reachable net ∧ ∃ n p, n ∈ net.g.nodes ∧ constantDrivers net n ≠ [] ∧
      net.kind p = .port ∧ Step net p n ∧ ∀ a ∈ net.g.nodes, ¬ Step net a p := by
  refine ⟨(NetGraph.calls {} disabledOps).getD {}, ⟨disabledOps, rfl⟩, 1, 2, by decide, by decide,
    by decide, ⟨by decide, ⟨1, 2, 1⟩, by decide, rfl, by decide⟩, ?_⟩
  rintro a ha ⟨_, e, he, ht, hd⟩
  have hall : ∀ a ∈ ((NetGraph.calls {} disabledOps).getD {}).g.nodes,
      ∀ e ∈ (((NetGraph.calls {} disabledOps).getD {}).g.obj a).outE, e.tgt = 2 →
        (((NetGraph.calls {} disabledOps).getD {}).attr e.id).disabled = true := by decide
  rw [hall a ha e he ht] at hd
  cases hd

/-- C10: duality fails when an end point is a register: 1 reaches 4 in its fan-out, but 4's fan-in
stops before register 1. -/
theorem fan_duality_fails_at_registers :
    4 ∈ combFanOut sampleNet 1 ∧ 1 ∉ combFanIn sampleNet 4 := by decide

/-- In the sample netlist `in` (2) reaches the merge (6) exactly because the merge is reached from it, and
a path from the assignment to itself is the empty one although it lies on a cycle. -/
example : (6 ∈ combFanOut sampleNet 2 ↔ 2 ∈ combFanIn sampleNet 6) ∧ 6 ∈ combFanOut sampleNet 2 ∧
    findPath sampleNet 3 3 = some [] :=
  ⟨fan_in_out_dual sampleNet ⟨sampleOps, rfl⟩ 2 6 (by decide) (by decide) (by decide) (by decide),
   by decide, (path_to_self_is_empty sampleNet ⟨sampleOps, rfl⟩ 3 (by decide)).1⟩

end Verif.Props

import Verif.Spec.Nodes
import Verif.Proofs.SoundTravel

/-! Helper lemmas: the nodes of a netlist. -/
namespace Verif.Proofs
open Verif.Spec Verif.Model Verif.Props

/-- Nodes with data `K` are added. -/
structure Adds (K : List NodeData) (net net' : NetGraph) : Prop where
  reach : Reachable net'
  datas : datas net' = datas net ++ K

theorem Adds.nil {net : NetGraph} (h : Reachable net) : Adds [] net net := ⟨h, by simp⟩

theorem Adds.trans {K L : List NodeData} {a b c : NetGraph} (h : Adds K a b) (k : Adds L b c) : Adds (K ++ L) a c :=
  ⟨k.reach, by rw [k.datas, h.datas, List.append_assoc]⟩

theorem Adds.then {K : List NodeData} {a b c : NetGraph} (h : Adds K a b) (k : Adds [] b c) : Adds K a c := by
  simpa using h.trans k

theorem Adds.after {K : List NodeData} {a b c : NetGraph} (h : Adds [] a b) (k : Adds K b c) : Adds K a c := by
  simpa using h.trans k

theorem adds_same {net net' : NetGraph} (h : Reachable net') (hd : net'.data = net.data)
    (hn : net'.g.nodes = net.g.nodes) : Adds [] net net' := ⟨h, by simp [Spec.datas, hd, hn]⟩

theorem adds_node {net net' : NetGraph} (hr : Reachable net) {d : NodeData} (h : net.call (.addNode d) = some net') :
    Adds [d] net net' := by
  obtain ⟨n1, e1, r1, g1, f1, d1, _, _⟩ := newNode_spec hr d
  rw [h] at e1; cases e1
  refine ⟨r1, ?_⟩
  rw [Spec.datas, g1, d1, List.map_append, Spec.datas]
  congr 1
  · refine List.map_congr_left fun n hn => ?_
    rw [if_neg]; rintro rfl; exact f1 hn
  · simp

theorem adds_deps {ds : List Dep} : ∀ {net net' : NetGraph}, Reachable net →
    net.addDependencies ds = some net' → Adds [] net net' := by
  induction ds with
  | nil => intro net net' hr h; cases h; exact .nil hr
  | cons d ds ih =>
    intro net net' hr h
    simp only [NetGraph.addDependencies] at h
    split at h
    · cases h
    · rename_i n1 e1
      by_cases hn : d.src ∈ net.g.nodes ∧ d.tgt ∈ net.g.nodes
      · obtain ⟨n2, e2, r2, d2, g2, a2⟩ := addDependency_spec hr hn.1 hn.2
        rw [e1] at e2; cases e2
        exact (adds_same r2 d2 g2).after (ih r2 h)
      · rw [addDependency_none hn] at e1; cases e1

theorem adds_edge {net net' : NetGraph} (hr : Reachable net) {a b : Nat} (h : net.call (.addEdge a b) = some net') :
    Adds [] net net' := by
  obtain ⟨ha, hb⟩ := call_addEdge_mem h
  obtain ⟨n2, e2, r2, d2, g2, _⟩ := addEdge_spec hr ha hb
  rw [h] at e2; cases e2
  exact adds_same r2 d2 g2

/-! ### The analysis of a block -/

theorem adds_dfaDeps {s s' : Dfa} (hr : Reachable s.net) {ds : List Dep} (h : s.addDeps ds = .ok s') :
    Adds [] s.net s'.net ∧ s'.cur = s.cur := by
  unfold Dfa.addDeps at h
  split at h
  · cases h
  · rename_i net' e; cases h; exact ⟨adds_deps hr e, rfl⟩

theorem adds_plain {s s' : Dfa} (hr : Reachable s.net) {a b : Nat} (h : s.addPlain a b = .ok s') :
    Adds [] s.net s'.net ∧ s'.cur = s.cur := by
  unfold Dfa.addPlain at h
  split at h
  · cases h
  · rename_i net' e; cases h; exact ⟨adds_edge hr e, rfl⟩

theorem adds_newNode {s s' : Dfa} (hr : Reachable s.net) {d : NodeData} {n : Nat} (h : s.newNode d = .ok (s', n)) :
    Adds [d] s.net s'.net ∧ s'.cur = s.cur := by
  unfold Dfa.newNode at h
  split at h
  · cases h
  · rename_i net' e; cases h; exact ⟨adds_node hr e, rfl⟩

theorem adds_rvalue {c : DfaCtx} {s s' : Dfa} (hr : Reachable s.net) {r : Ref} {b : BitRange} {o : Option Nat}
    (h : s.addRvalue c r b o = .ok s') : Adds [] s.net s'.net ∧ s'.cur = s.cur := by
  unfold Dfa.addRvalue at h
  split at h
  · exact adds_dfaDeps hr h
  · cases h; exact ⟨.nil hr, rfl⟩

theorem adds_rvalues {c : DfaCtx} {r : Ref} {o : Option Nat} (es : List (Ivl Unit)) : ∀ {s s' : Dfa},
    Reachable s.net → s.addRvalues c r o es = .ok s' → Adds [] s.net s'.net ∧ s'.cur = s.cur := by
  induction es with
  | nil => intro s s' hr h; cases h; exact ⟨.nil hr, rfl⟩
  | cons e es ih =>
    intro s s' hr h
    unfold Dfa.addRvalues at h
    split at h
    · cases h
    · rename_i s1 h1
      obtain ⟨a1, a2⟩ := adds_rvalue hr h1
      obtain ⟨b1, b2⟩ := ih a1.reach h
      exact ⟨a1.after b1, b2.trans a2⟩

theorem adds_read {c : DfaCtx} {s s' : Dfa} (hr : Reachable s.net) {r : Ref} (h : s.handleRvalue c r = .ok s') :
    Adds [] s.net s'.net ∧ s'.cur = s.cur := by
  unfold Dfa.handleRvalue at h
  split at h
  · exact adds_rvalue hr h
  · split at h
    · exact adds_rvalue hr h
    · split at h
      · cases h
      · split at h
        · cases h
        · rename_i s1 h1
          obtain ⟨a1, a2⟩ := adds_dfaDeps hr h1
          split at h
          · cases h; exact ⟨a1, a2⟩
          · split at h
            · cases h
            · obtain ⟨b1, b2⟩ := adds_rvalues _ a1.reach h
              exact ⟨a1.after b1, b2.trans a2⟩

theorem adds_write {s s' : Dfa} (hr : Reachable s.net) {b : Bool} {r : Ref} (h : s.handleLvalue b r = .ok s') :
    Adds [] s.net s'.net ∧ s'.cur.node = s.cur.node := by
  unfold Dfa.handleLvalue at h
  split at h
  · cases h; exact ⟨.nil hr, rfl⟩
  · split at h
    · cases h
    · cases h; exact ⟨.nil hr, rfl⟩

theorem adds_note {c : DfaCtx} {s s' : Dfa} (hr : Reachable s.net) {b : Bool} {x : Note}
    (h : s.noteRef c b x = .ok s') : Adds [] s.net s'.net ∧ s'.cur.node = s.cur.node := by
  unfold Dfa.noteRef at h
  split at h
  · cases h; exact ⟨.nil hr, rfl⟩
  · split at h
    · cases h; exact ⟨.nil hr, rfl⟩
    · split at h
      · exact adds_write hr h
      · obtain ⟨a1, a2⟩ := adds_read hr h
        exact ⟨a1, by rw [a2]⟩

theorem adds_notes {c : DfaCtx} {b : Bool} (xs : List Note) : ∀ {s s' : Dfa}, Reachable s.net →
    s.noteRefs c b xs = .ok s' → Adds [] s.net s'.net ∧ s'.cur.node = s.cur.node := by
  induction xs with
  | nil => intro s s' hr h; cases h; exact ⟨.nil hr, rfl⟩
  | cons x xs ih =>
    intro s s' hr h
    unfold Dfa.noteRefs at h
    split at h
    · cases h
    · rename_i s1 h1
      obtain ⟨a1, a2⟩ := adds_note hr h1
      obtain ⟨b1, b2⟩ := ih a1.reach h
      exact ⟨a1.after b1, b2.trans a2⟩

theorem adds_update {s s' : Dfa} (hr : Reachable s.net) {n : Nat} {k : Bool} (h : s.updateNode n k = .ok s') :
    Adds [] s.net s'.net ∧ s'.cur.node = some n := by
  unfold Dfa.updateNode at h
  dsimp only at h
  split at h
  · cases h; exact ⟨.nil hr, rfl⟩
  · split at h
    · cases h
    · rename_i s1 h1
      cases h
      exact ⟨(adds_plain hr h1).1, rfl⟩

theorem adds_lhs {b : Bool} (rs : List Ref) : ∀ {s s' : Dfa}, Reachable s.net → s.segLhs b rs = .ok s' →
    Adds [] s.net s'.net ∧ s'.cur.node = s.cur.node := by
  induction rs with
  | nil => intro s s' hr h; cases h; exact ⟨.nil hr, rfl⟩
  | cons x xs ih =>
    intro s s' hr h
    unfold Dfa.segLhs at h
    split at h
    · cases h
    · rename_i s1 h1
      obtain ⟨a1, a2⟩ := adds_write hr h1
      obtain ⟨b1, b2⟩ := ih a1.reach h
      exact ⟨a1.after b1, b2.trans a2⟩

theorem adds_rhs {c : DfaCtx} {b : Bool} {n : Nat} (xs : List RSrc) : ∀ {s s' : Dfa}, Reachable s.net →
    s.cur.node = some n → s.segRhs c b xs = .ok s' → Adds (constantsOf xs) s.net s'.net := by
  induction xs with
  | nil => intro s s' hr _ h; cases h; exact .nil hr
  | cons x xs ih =>
    intro s s' hr hn h
    unfold Dfa.segRhs at h
    split at h
    · cases h
    · rename_i s1 h1
      cases x with
      | lsp r =>
        obtain ⟨a1, a2⟩ := adds_read hr h1
        exact a1.after (ih a1.reach (by rw [a2]; exact hn) h)
      | «opaque» rs =>
        obtain ⟨a1, a2⟩ := adds_notes _ hr h1
        exact a1.after (ih a1.reach (a2.trans hn) h)
      | padding => cases h1; exact ih hr hn h
      | constant v w l =>
        unfold Dfa.segSrc at h1
        simp only [hn] at h1
        split at h1
        · cases h1
        · rename_i s2 k h2
          obtain ⟨a1, a2⟩ := adds_newNode hr h2
          obtain ⟨b1, b2⟩ := adds_plain a1.reach h1
          exact (a1.then b1).trans (ih b1.reach (by rw [b2, a2]; exact hn) h)

theorem adds_start {s s' : Dfa} (hr : Reachable s.net) {loc : TextLoc} (h : s.startAssign loc = .ok s') :
    Adds [.assignment loc] s.net s'.net ∧ ∃ n, s'.cur.node = some n := by
  unfold Dfa.startAssign at h
  split at h
  · cases h
  · rename_i s1 n h1
    obtain ⟨a1, a2⟩ := adds_newNode hr h1
    obtain ⟨b1, b2⟩ := adds_update a1.reach h
    exact ⟨a1.then b1, n, b2⟩

theorem adds_segments {c : DfaCtx} {loc : TextLoc} {b : Bool} {o k : Option Nat} (gs : List DSeg) : ∀ {s s' : Dfa},
    Reachable s.net → s.segments c b o k gs = .ok s' → Adds (asgNodes loc (.aligned gs)) s.net s'.net := by
  induction gs with
  | nil => intro s s' hr h; cases h; exact .nil hr
  | cons g gs ih =>
    intro s s' hr h
    unfold Dfa.segments at h
    dsimp only at h
    split at h
    · cases h
    · rename_i s1 h1
      split at h
      · cases h
      · rename_i s2 h2
        obtain ⟨a1, n, a2⟩ := adds_start (by exact hr) h1
        unfold Dfa.segBody at h2
        split at h2
        · cases h2
        · rename_i s3 h3
          obtain ⟨b1, b2⟩ := adds_lhs _ a1.reach h3
          have c1 := adds_rhs _ b1.reach (b2.trans a2) h2
          have := ((a1.then b1).trans c1).trans (ih c1.reach h)
          simpa [asgNodes] using this

theorem adds_assign {c : DfaCtx} {s s' : Dfa} (hr : Reachable s.net) {loc : TextLoc} {b : Bool} {a : Asg}
    (h : s.assign c loc b a = .ok s') : Adds (asgNodes loc a) s.net s'.net := by
  unfold Dfa.assign at h
  split at h
  · split at h
    · cases h
    · rename_i s1 h1
      obtain ⟨a1, _⟩ := adds_start hr h1
      exact a1.then (adds_notes _ a1.reach h).1
  · exact adds_segments _ hr h

theorem adds_merge {s s' : Dfa} (hr : Reachable s.net) {a b o : Option Nat} (h : s.mergeNodes a b = .ok (s', o)) :
    ∃ K, Adds K s.net s'.net ∧ (K = [] ∨ K = [.merge]) := by
  unfold Dfa.mergeNodes at h
  split at h
  · split at h
    · split at h
      · cases h
      · rename_i s1 n h1
        split at h
        · cases h
        · rename_i s2 h2
          split at h
          · cases h
          · rename_i s3 h3
            cases h
            obtain ⟨a1, _⟩ := adds_newNode hr h1
            obtain ⟨b1, _⟩ := adds_plain a1.reach h2
            exact ⟨_, (a1.then b1).then (adds_plain b1.reach h3).1, .inr rfl⟩
    · cases h; exact ⟨[], .nil hr, .inl rfl⟩
  · cases h; exact ⟨[], .nil hr, .inl rfl⟩
  · cases h; exact ⟨[], .nil hr, .inl rfl⟩

/-- Nodes of text `L` and at most `k` merges. -/
structure Lays (k : Nat) (L : List NodeData) (net net' : NetGraph) : Prop where
  reach : Reachable net'
  adds : ∃ K, datas net' = datas net ++ K ∧ K.filter (!NodeData.derived ·) = L ∧
    (∀ d ∈ K, NodeData.derived d = true → d = .merge) ∧ (K.filter NodeData.derived).length ≤ k

theorem Lays.trans {k l : Nat} {K L : List NodeData} {a b c : NetGraph} (h : Lays k K a b) (g : Lays l L b c) :
    Lays (k + l) (K ++ L) a c := by
  obtain ⟨_, K1, h1, h2, h3, h4⟩ := h
  obtain ⟨r, K2, g1, g2, g3, g4⟩ := g
  refine ⟨r, K1 ++ K2, by rw [g1, h1, List.append_assoc], by simp [h2, g2], fun d hd => ?_, ?_⟩
  · rcases List.mem_append.1 hd with hd | hd
    · exact h3 d hd
    · exact g3 d hd
  · rw [List.filter_append, List.length_append]; omega

theorem Adds.lays {K : List NodeData} {a b : NetGraph} (h : Adds K a b) (hK : ∀ d ∈ K, NodeData.derived d = false) :
    Lays 0 K a b := by
  refine ⟨h.reach, K, h.datas, List.filter_eq_self.2 fun d hd => by simp [hK d hd], fun d hd e => ?_, ?_⟩
  · rw [hK d hd] at e; cases e
  · rw [List.filter_eq_nil_iff.2 (fun d hd => by simp [hK d hd])]; simp

theorem constantsOf_plain (xs : List RSrc) : ∀ d ∈ constantsOf xs, NodeData.derived d = false := by
  induction xs with
  | nil => simp [constantsOf]
  | cons x xs ih =>
    cases x with
    | constant v w l =>
      intro d hd
      rcases List.mem_cons.1 hd with rfl | hd
      · rfl
      · exact ih d hd
    | lsp | «opaque» | padding => exact ih

theorem asgNodes_plain (loc : TextLoc) (a : Asg) : ∀ d ∈ asgNodes loc a, NodeData.derived d = false := by
  intro d hd
  cases a with
  | legacy => cases List.mem_singleton.1 hd; rfl
  | aligned segs =>
    obtain ⟨g, _, hd⟩ := List.mem_flatMap.1 hd
    rcases List.mem_cons.1 hd with rfl | hd
    · rfl
    · exact constantsOf_plain _ d hd

theorem lays_merge {s s' : Dfa} (hr : Reachable s.net) {a b o : Option Nat} (h : s.mergeNodes a b = .ok (s', o)) :
    Lays 1 [] s.net s'.net := by
  obtain ⟨K, h1, rfl | rfl⟩ := adds_merge hr h
  · exact ⟨h1.reach, [], h1.datas, rfl, by simp, by simp⟩
  · exact ⟨h1.reach, [.merge], h1.datas, rfl, fun d hd _ => List.mem_singleton.1 hd, Nat.le_refl _⟩

theorem lays_join {s s' : Dfa} (hr : Reachable s.net) {f : Flow} (h : s.joinState f = .ok s') :
    Lays 2 [] s.net s'.net := by
  have same : Lays 2 [] s.net s.net := ⟨hr, [], by simp, rfl, by simp, by simp⟩
  unfold Dfa.joinState at h
  split at h
  · unfold Dfa.mergeStates at h
    split at h
    · cases h
    · dsimp only at h
      split at h
      · cases h
      · rename_i s1 n h1
        split at h
        · cases h
        · rename_i s2 k h2
          cases h
          have a1 := lays_merge (by exact hr) h1
          exact a1.trans (lays_merge a1.reach h2)
  · split at h
    · cases h; exact same
    · cases h; exact same

theorem lays_exec {c : DfaCtx} (st : Stmt) : ∀ {s s' : Dfa}, Reachable s.net → s.exec c st = .ok s' →
    Lays (2 * choices st) (stmtNodes st) s.net s'.net := by
  have same : ∀ {net : NetGraph}, Reachable net → Lays 0 [] net net := fun hr => ⟨hr, [], by simp, rfl, by simp, by simp⟩
  induction st with
  | skip => intro s s' hr h; cases h; exact same hr
  | reads rs => intro s s' hr h; exact (adds_notes _ hr h).1.lays (by simp)
  | assign loc b a => intro s s' hr h; exact (adds_assign hr h).lays (asgNodes_plain loc a)
  | branch k loc =>
    intro s s' hr h
    simp only [Dfa.exec, Dfa.branch] at h
    split at h
    · cases h
    · rename_i s1 n h1
      obtain ⟨a1, _⟩ := adds_newNode hr h1
      refine (a1.then (adds_update a1.reach h).1).lays fun d hd => ?_
      cases List.mem_singleton.1 hd
      cases k <;> rfl
  | dead => intro s s' hr h; cases h; exact same hr
  | seq a b iha ihb =>
    intro s s' hr h
    simp only [Dfa.exec] at h
    split at h
    · cases h
    · rename_i s1 h1
      have a1 := iha hr h1
      have := a1.trans (ihb a1.reach h)
      rw [← Nat.mul_add] at this
      exact this
  | choose f a b iha ihb =>
    intro s s' hr h
    simp only [Dfa.exec] at h
    split at h
    · cases h
    · rename_i s1 h1
      have a1 := iha hr h1
      split at h
      · cases h
      · rename_i s2 h2
        have a2 := ihb (by exact a1.reach) h2
        have hc : 2 * choices (.choose f a b) = 2 * choices a + 2 * choices b + 2 := by simp only [choices]; omega
        have hn : stmtNodes (.choose f a b) = stmtNodes a ++ stmtNodes b ++ [] := by simp [stmtNodes]
        rw [hc, hn]
        refine (a1.trans a2).trans ?_
        split at h
        · have := lays_join (by exact a2.reach) h; exact this
        · exact lays_join a2.reach h

/-! ### Blocks -/

theorem nba_net (ws : List PendL) : ∀ {s s' : Dfa}, s.processNba ws = .ok s' → s'.net = s.net := by
  induction ws with
  | nil => intro s s' h; cases h; rfl
  | cons w ws ih =>
    intro s s' h
    unfold Dfa.processNba at h
    split at h
    · cases h
    · have := ih h; exact this

theorem lays_dfa {c : DfaCtx} {s : Dfa} {b : Deferred} {d : Dfa} (hr : Reachable s.net) (h : dfaOf c s b = .ok d) :
    Lays (2 * choices b.stmt) (stmtNodes b.stmt) s.net d.net := by
  cases b with
  | procedural k body st =>
    simp only [dfaOf, Dfa.runBlock] at h
    split at h
    · cases h
    · rename_i s1 h1
      rw [nba_net _ h]
      exact lays_exec st hr h1
  | continuous loc a => exact lays_exec (.assign loc true a) hr h

/-- Nodes of text `L`, at most `k` merges, and registers among `R`. -/
structure Builds (R : NodeData → Prop) (k : Nat) (L : List NodeData) (net net' : NetGraph) : Prop where
  reach : Reachable net'
  adds : ∃ K, datas net' = datas net ++ K ∧ K.filter (!NodeData.derived ·) = L ∧
    (∀ d ∈ K, NodeData.derived d = true → d = .merge ∨ R d) ∧ (K.filter (·.kind == .merge)).length ≤ k

theorem Builds.trans {R : NodeData → Prop} {k l : Nat} {K L : List NodeData} {a b c : NetGraph} (h : Builds R k K a b)
    (g : Builds R l L b c) : Builds R (k + l) (K ++ L) a c := by
  obtain ⟨_, K1, h1, h2, h3, h4⟩ := h
  obtain ⟨r, K2, g1, g2, g3, g4⟩ := g
  refine ⟨r, K1 ++ K2, by rw [g1, h1, List.append_assoc], by simp [h2, g2], fun d hd => ?_, ?_⟩
  · rcases List.mem_append.1 hd with hd | hd
    · exact h3 d hd
    · exact g3 d hd
  · rw [List.filter_append, List.length_append]; omega

theorem Builds.nil {R : NodeData → Prop} {net : NetGraph} (h : Reachable net) : Builds R 0 [] net net :=
  ⟨h, [], by simp, rfl, by simp, by simp⟩

theorem Builds.weaken {R S : NodeData → Prop} {k : Nat} {L : List NodeData} {a b : NetGraph} (h : Builds R k L a b)
    (hR : ∀ d, R d → S d) : Builds S k L a b := by
  obtain ⟨r, K, h1, h2, h3, h4⟩ := h
  exact ⟨r, K, h1, h2, fun d hd e => (h3 d hd e).imp_right (hR d), h4⟩

theorem Lays.builds {R : NodeData → Prop} {k : Nat} {L : List NodeData} {a b : NetGraph} (h : Lays k L a b) :
    Builds R k L a b := by
  obtain ⟨r, K, h1, h2, h3, h4⟩ := h
  refine ⟨r, K, h1, h2, fun d hd e => .inl (h3 d hd e), Nat.le_trans ?_ h4⟩
  have : (K.filter (·.kind == .merge)) = (K.filter NodeData.derived).filter (·.kind == .merge) := by
    rw [List.filter_filter]
    refine List.filter_congr fun d _ => ?_
    cases d <;> rfl
  rw [this]
  exact List.length_filter_le _ _

theorem adds_bldDeps {s s' : Bld} (hr : Reachable s.net) {ds : List Dep} (h : s.addDeps ds = .ok s') :
    Adds [] s.net s'.net := by
  unfold Bld.addDeps at h
  split at h
  · cases h
  · rename_i net' e; cases h; exact adds_deps hr e

theorem adds_comb {D : Design} {s s' : Bld} (hr : Reachable s.net) {y : Nat} {b : BitRange} {l : List DriverInfo}
    (h : s.mergeComb D y b l = .ok s') : Adds [] s.net s'.net := by
  unfold Bld.mergeComb at h
  split at h
  · cases h
  · have := adds_bldDeps (by exact hr) h; exact this

theorem adds_seq {D : Design} {s s' : Bld} (hr : Reachable s.net) {sens : List SensEntry} {y : Nat} {b : BitRange}
    {l : List DriverInfo} (h : s.mergeSeq D sens y b l = .ok s') :
    Adds [.state (D.ref y).name (D.ref y).path (D.ref y).loc b] s.net s'.net := by
  unfold Bld.mergeSeq at h
  split at h
  · cases h
  · rename_i s1 st h1
    unfold Bld.createState at h1
    dsimp only at h1
    split at h1
    · cases h1
    · rename_i net' e
      cases h1
      have a1 := adds_node hr e
      have := adds_bldDeps (by exact a1.reach) h
      exact a1.then this

theorem builds_merge {E : TravEnv} {G : Grain} {b : Deferred} {sens : List SensEntry} (hso : sensOf b = .ok sens)
    (ws : List Driven) : ∀ {s s' : Bld}, Reachable s.net →
      (∀ w ∈ ws, ∀ p, InRng w.bounds p → ∃ loc, G.final b.stmt w.sym p loc) →
      s.mergeDrivers E.D sens ws = .ok s' → Builds (fun d => ∃ y, RegOf E G b y d) 0 [] s.net s'.net := by
  obtain ⟨h1, _⟩ := sens_registers hso
  induction ws with
  | nil => intro s s' hr _ h; cases h; exact .nil hr
  | cons w ws ih =>
    intro s s' hr hw h
    unfold Bld.mergeDrivers at h
    split at h
    · cases h
    · rename_i s1 hs1
      have a : Builds (fun d => ∃ y, RegOf E G b y d) 0 [] s.net s1.net := by
        split at hs1
        · exact ((adds_comb hr hs1).lays (by simp)).builds
        · rename_i he
          have a := adds_seq hr hs1
          refine ⟨a.reach, _, a.datas, rfl, fun d hd _ => .inr ⟨w.sym, ?_⟩, Nat.le_refl _⟩
          cases List.mem_singleton.1 hd
          exact .mk (h1.1 (by simpa using he)) (hw w List.mem_cons_self)
      exact a.trans (ih a.reach (fun v hv => hw v (List.mem_cons_of_mem _ hv)) h)

theorem builds_block {E : TravEnv} {es : List Event} {G : Grain} {K : Disc} (hG : GOk E es G K)
    {ord : Tracker → List (Nat × Nat)} (hv : Visits ord) {b : Deferred} (hb : b ∈ blocksOf es) {s s' : Bld}
    (hs : SB E es G K s) (h : s.handleBlock E.D ord b = .ok s') :
    Builds (fun d => ∃ y, RegOf E G b y d) (2 * choices b.stmt) (stmtNodes b.stmt) s.net s'.net := by
  rw [handleBlock_eq] at h
  split at h
  · cases h
  · rename_i sens h1
    split at h
    · cases h
    · rename_i d h2
      obtain ⟨a1, a2, a3, a4⟩ := dfa_sound hG hs hb h2
      have l1 := lays_dfa (by exact hs.ok.reach) h2
      unfold Bld.mergeBlock at h
      split at h
      · cases h
      · rename_i ws h3
        have := builds_merge (E := E) (G := G) h1 ws (by exact l1.reach) (fun w hw p hp => ?_) h
        · have := l1.builds.trans this
          simpa using this
        · obtain ⟨_, g2, g3⟩ := disc_driven K (fin_adm hG b _) a3 a4 (ord d.trk)
            (fun p hp => (hv d.trk).mem_iff.1 hp) h3 w hw
          obtain ⟨_, n, _, _, loc, _, g⟩ := K.some (fin_adm hG b _) g2 (fun d hd => g3 d hd p hp)
          exact ⟨loc, g⟩

theorem builds_blocks {E : TravEnv} {es : List Event} {G : Grain} {K : Disc} (hG : GOk E es G K)
    {ord : Tracker → List (Nat × Nat)} (hv : Visits ord) (bs : List Deferred) : ∀ {s s' : Bld},
      (∀ b ∈ bs, b ∈ blocksOf es) → SB E es G K s → s.runBlocks E.D ord bs = .ok s' →
      Builds (fun d => ∃ b ∈ bs, ∃ y, RegOf E G b y d) (2 * (bs.map fun b => choices b.stmt).sum)
        (bs.flatMap fun b => stmtNodes b.stmt) s.net s'.net := by
  induction bs with
  | nil => intro s s' _ hs h; cases h; exact .nil hs.ok.reach
  | cons b bs ih =>
    intro s s' hb hs h
    unfold Bld.runBlocks at h
    split at h
    · cases h
    · rename_i s1 h1
      have a := builds_block hG hv (hb b List.mem_cons_self) hs h1
      have c := ih (fun x hx => hb x (List.mem_cons_of_mem _ hx)) (block_sound hG hv (hb b List.mem_cons_self) hs h1) h
      have := (a.weaken (S := fun d => ∃ b' ∈ b :: bs, ∃ y, RegOf E G b' y d) fun d hd => ⟨b, List.mem_cons_self, hd⟩).trans
        (c.weaken fun d ⟨x, hx, hd⟩ => ⟨x, List.mem_cons_of_mem _ hx, hd⟩)
      rw [← Nat.mul_add] at this
      exact this

theorem adds_resolve {C : ResolveCtx} {net net' : NetGraph} {q : List Pending} (hr : Reachable net)
    (h : resolveSequential C net q = .ok net') : Adds [] net net' := by
  unfold resolveSequential at h
  split at h
  · cases h
  · split at h
    · cases h
    · rename_i e
      cases h
      exact adds_deps hr e

end Verif.Proofs

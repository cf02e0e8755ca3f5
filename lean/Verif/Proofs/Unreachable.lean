import Verif.Spec.Unreachable
import Verif.Proofs.DataflowExec

/-! For C112: the analysis of unreachable code, step by step. -/
namespace Verif.Proofs
open Verif.Model Verif.Spec Verif.Props

/-- A node made since `B`. -/
def Since (B s : Dfa) (o : Option Nat) : Prop := ∀ k, o = some k → k ∈ s.net.g.nodes ∧ k ∉ B.net.g.nodes

/-- The current state is that of unreachable code which began at `B`. -/
structure DeadAt (B s : Dfa) (f : Flow) : Prop where
  reach : f.reach = false
  drv : f.drv = []
  node : Since B s f.node
  cond : Since B s f.cond

/-- The analysis, in code that began to be unreachable at `B`. -/
structure Asleep (B s : Dfa) : Prop where
  net : Reachable s.net
  un : Untouched B s

theorem since_mono {B s s' : Dfa} {o : Option Nat} (hn : ∀ n ∈ s.net.g.nodes, n ∈ s'.net.g.nodes) (h : Since B s o) :
    Since B s' o := fun k hk => ⟨hn k (h k hk).1, (h k hk).2⟩

theorem deadAt_mono {B s s' : Dfa} {f : Flow} (hn : ∀ n ∈ s.net.g.nodes, n ∈ s'.net.g.nodes) (h : DeadAt B s f) :
    DeadAt B s' f := ⟨h.reach, h.drv, since_mono hn h.node, since_mono hn h.cond⟩

theorem asleep_newNode {B s : Dfa} (h : Asleep B s) (d : NodeData) :
    ∃ s' n, s.newNode d = .ok (s', n) ∧ Asleep B s' ∧ s'.cur = s.cur ∧ (∀ n ∈ s.net.g.nodes, n ∈ s'.net.g.nodes) ∧
      Since B s' (some n) := by
  obtain ⟨s', n, h1, h2, h3, h4, h5, h6, h7, h8, h9⟩ := dfa_newNode h.net d
  refine ⟨s', n, h1, ⟨h2.reach, ⟨h2.trk.trans h.un.trk, h4.trans h.un.queue, h2.nba.trans h.un.nba, fun k hk => ?_,
    fun a b hab => h2.net.join a b (h.un.kept a b hab), fun a b hab => h.un.new a b ((h8 a b).1 hab)⟩⟩, h3, h2.net.nodes, ?_⟩
  · obtain ⟨e1, e2⟩ := h.un.nodes k hk
    exact ⟨h2.net.nodes k e1, (h2.net.data k e1).trans e2⟩
  · intro k hk
    cases hk
    exact ⟨by rw [h5]; simp, fun hb => h6 (h.un.nodes _ hb).1⟩

theorem asleep_addPlain {B s : Dfa} (h : Asleep B s) {a b : Nat} (ha : Since B s (some a)) (hb : Since B s (some b)) :
    ∃ s', s.addPlain a b = .ok s' ∧ Asleep B s' ∧ s'.cur = s.cur ∧ ∀ n ∈ s.net.g.nodes, n ∈ s'.net.g.nodes := by
  obtain ⟨s', h1, h2, h3, h4, h5, h6⟩ := dfa_addPlain h.net (ha a rfl).1 (hb b rfl).1
  refine ⟨s', h1, ⟨h2.reach, ⟨h2.trk.trans h.un.trk, h4.trans h.un.queue, h2.nba.trans h.un.nba, fun k hk => ?_,
    fun x y hxy => h2.net.join x y (h.un.kept x y hxy), fun x y hxy => ?_⟩⟩, h3, h2.net.nodes⟩
  · obtain ⟨e1, e2⟩ := h.un.nodes k hk
    exact ⟨h2.net.nodes k e1, (h2.net.data k e1).trans e2⟩
  · rcases (h6 x y).1 hxy with e | ⟨rfl, rfl⟩
    · exact h.un.new x y e
    · exact .inr ⟨(ha _ rfl).2, (hb _ rfl).2⟩

/-- Changing the current state changes nothing else. -/
theorem asleep_cur {B s : Dfa} (h : Asleep B s) (f : Flow) : Asleep B { s with cur := f } :=
  ⟨h.net, ⟨h.un.trk, h.un.queue, h.un.nba, h.un.nodes, h.un.kept, h.un.new⟩⟩

theorem asleep_updateNode {B s : Dfa} (h : Asleep B s) (hf : DeadAt B s s.cur) {n : Nat} (hn : Since B s (some n)) (k : Bool) :
    ∃ s', s.updateNode n k = .ok s' ∧ Asleep B s' ∧ DeadAt B s' s'.cur ∧ ∀ n ∈ s.net.g.nodes, n ∈ s'.net.g.nodes := by
  have fin : ∀ s1 : Dfa, Asleep B s1 → s1.cur = s.cur → (∀ n ∈ s.net.g.nodes, n ∈ s1.net.g.nodes) →
      Asleep B { s1 with cur := { s1.cur with cond := if k then some n else none, node := some n } } ∧
      DeadAt B { s1 with cur := { s1.cur with cond := if k then some n else none, node := some n } }
        { s1.cur with cond := if k then some n else none, node := some n } := by
    intro s1 h1 h2 h3
    have hn1 : Since B s1 (some n) := since_mono h3 hn
    refine ⟨asleep_cur h1 _, ⟨by rw [h2]; exact hf.reach, by rw [h2]; exact hf.drv, hn1, ?_⟩⟩
    cases k
    · intro j hj; cases hj
    · exact hn1
  cases hc : s.cur.cond with
  | none =>
    obtain ⟨a, b⟩ := fin s h rfl (fun _ h => h)
    exact ⟨_, by simp only [Dfa.updateNode, hc], a, b, fun _ h => h⟩
  | some j =>
    obtain ⟨s1, e1, e2, e3, e4⟩ := asleep_addPlain h (hc ▸ hf.cond) hn
    obtain ⟨a, b⟩ := fin s1 e2 e3 e4
    exact ⟨_, by simp only [Dfa.updateNode, hc, e1], a, b, e4⟩

theorem asleep_noteRefs {c : DfaCtx} {s : Dfa} (hf : s.cur.reach = false) (b : Bool) (xs : List Note) :
    s.noteRefs c b xs = .ok s := by
  induction xs with
  | nil => rfl
  | cons x xs ih => simp only [Dfa.noteRefs, Dfa.noteRef, hf, Bool.not_false, if_true, ih]

theorem asleep_mergeNodes {B s : Dfa} (h : Asleep B s) {a b : Option Nat} (ha : Since B s a) (hb : Since B s b) :
    ∃ s' n, s.mergeNodes a b = .ok (s', n) ∧ Asleep B s' ∧ s'.cur = s.cur ∧ (∀ n ∈ s.net.g.nodes, n ∈ s'.net.g.nodes) ∧
      Since B s' n := by
  cases a with
  | none =>
    cases b with
    | none => exact ⟨s, none, rfl, h, rfl, fun _ h => h, ha⟩
    | some y => exact ⟨s, some y, rfl, h, rfl, fun _ h => h, hb⟩
  | some x =>
    cases b with
    | none => exact ⟨s, some x, rfl, h, rfl, fun _ h => h, ha⟩
    | some y =>
      by_cases hxy : x = y
      · exact ⟨s, none, by simp [Dfa.mergeNodes, hxy], h, rfl, fun _ h => h, fun k hk => by cases hk⟩
      · obtain ⟨s1, n, a1, a2, a3, a4, a5⟩ := asleep_newNode h .merge
        obtain ⟨s2, b1, b2, b3, b4⟩ := asleep_addPlain a2 (since_mono a4 ha) a5
        obtain ⟨s3, c1, c2, c3, c4⟩ := asleep_addPlain b2 (since_mono b4 (since_mono a4 hb)) (since_mono b4 a5)
        exact ⟨s3, some n, by simp [Dfa.mergeNodes, hxy, a1, b1, c1], c2, c3.trans (b3.trans a3),
          fun k hk => c4 k (b4 k (a4 k hk)), since_mono c4 (since_mono b4 a5)⟩

theorem asleep_joinState {B s : Dfa} (h : Asleep B s) (hf : DeadAt B s s.cur) {o : Flow} (ho : DeadAt B s o) :
    ∃ s', s.joinState o = .ok s' ∧ Asleep B s' ∧ DeadAt B s' s'.cur ∧ ∀ n ∈ s.net.g.nodes, n ∈ s'.net.g.nodes := by
  obtain ⟨s1, n, a1, a2, a3, a4, a5⟩ := asleep_mergeNodes h hf.node ho.node
  obtain ⟨s2, k, b1, b2, b3, b4, b5⟩ := asleep_mergeNodes (a := s1.cur.cond) (b := o.cond) a2
    (by rw [a3]; exact since_mono a4 hf.cond) (since_mono a4 ho.cond)
  refine ⟨{ s2 with cur := { s2.cur with node := n, cond := k } }, ?_, asleep_cur b2 _,
    ⟨by show s2.cur.reach = false; rw [b3, a3]; exact hf.reach, by show s2.cur.drv = []; rw [b3, a3]; exact hf.drv,
      since_mono b4 a5, b5⟩, fun m hm => b4 m (a4 m hm)⟩
  have e : s.joinState o = s.mergeStates o := by simp only [Dfa.joinState, hf.reach, ho.reach, if_true]
  rw [e]
  simp only [Dfa.mergeStates, ho.drv, mergeDrv, a1, b1]

theorem asleep_exec {c : DfaCtx} {B : Dfa} (st : Stmt) (hw : TakenWhole st) {s : Dfa} (h : Asleep B s)
    (hf : DeadAt B s s.cur) :
    ∃ s', s.exec c st = .ok s' ∧ Asleep B s' ∧ DeadAt B s' s'.cur ∧ ∀ n ∈ s.net.g.nodes, n ∈ s'.net.g.nodes := by
  induction st generalizing s with
  | skip => exact ⟨s, rfl, h, hf, fun _ h => h⟩
  | reads rs => exact ⟨s, asleep_noteRefs hf.reach _ _, h, hf, fun _ h => h⟩
  | assign loc b a =>
    cases a with
    | aligned segs => exact hw.elim
    | legacy notes =>
      obtain ⟨s1, n, a1, a2, a3, a4, a5⟩ := asleep_newNode h (.assignment loc)
      obtain ⟨s2, b1, b2, b3, b4⟩ := asleep_updateNode a2 (a3 ▸ deadAt_mono a4 hf) a5 false
      exact ⟨s2, by simp only [Dfa.exec, Dfa.assign, Dfa.startAssign, a1, b1, asleep_noteRefs b3.reach], b2, b3,
        fun k hk => b4 k (a4 k hk)⟩
  | branch k loc =>
    obtain ⟨s1, n, a1, a2, a3, a4, a5⟩ := asleep_newNode h (if k then .case loc else .conditional loc)
    obtain ⟨s2, b1, b2, b3, b4⟩ := asleep_updateNode a2 (a3 ▸ deadAt_mono a4 hf) a5 true
    exact ⟨s2, by simp only [Dfa.exec, Dfa.branch, a1, b1], b2, b3, fun k hk => b4 k (a4 k hk)⟩
  | dead => exact ⟨_, rfl, asleep_cur h _, ⟨rfl, rfl, (fun k hk => by cases hk), (fun k hk => by cases hk)⟩, fun _ h => h⟩
  | seq a b iha ihb =>
    obtain ⟨s1, a1, a2, a3, a4⟩ := iha hw.1 h hf
    obtain ⟨s2, b1, b2, b3, b4⟩ := ihb hw.2 a2 a3
    exact ⟨s2, by simp only [Dfa.exec, a1, b1], b2, b3, fun k hk => b4 k (a4 k hk)⟩
  | choose f a b iha ihb =>
    obtain ⟨s1, a1, a2, a3, a4⟩ := iha hw.1 h hf
    obtain ⟨s2, b1, b2, b3, b4⟩ := ihb hw.2 (s := { s1 with cur := s.cur }) (asleep_cur a2 _)
      (deadAt_mono (s' := { s1 with cur := s.cur }) a4 hf)
    cases f with
    | true =>
      obtain ⟨s3, c1, c2, c3, c4⟩ := asleep_joinState (s := { s2 with cur := s1.cur }) (o := s2.cur) (asleep_cur b2 _)
        (deadAt_mono (s := s1) (s' := { s2 with cur := s1.cur }) b4 a3)
        (deadAt_mono (s := s2) (s' := { s2 with cur := s1.cur }) (fun _ h => h) b3)
      exact ⟨s3, by simp only [Dfa.exec, a1, b1, if_true, c1], c2, c3, fun k hk => c4 k (b4 k (a4 k hk))⟩
    | false =>
      obtain ⟨s3, c1, c2, c3, c4⟩ := asleep_joinState (o := s1.cur) b2 b3 (deadAt_mono (s := s1) b4 a3)
      exact ⟨s3, by simp only [Dfa.exec, a1, b1, Bool.false_eq_true, if_false, c1], c2, c3, fun k hk => c4 k (b4 k (a4 k hk))⟩

/-- What is recorded at the end of a block depends on the tracker and the current state only. -/
theorem processNba_same (ws : List PendL) {s t s' : Dfa} (h1 : t.trk = s.trk) (h2 : t.cur = s.cur)
    (h : s.processNba ws = .ok s') : ∃ t', t.processNba ws = .ok t' ∧ t'.trk = s'.trk ∧ t'.cur = s'.cur := by
  induction ws generalizing s t with
  | nil => cases h; exact ⟨_, rfl, h1, h2⟩
  | cons w ws ih =>
    unfold Dfa.processNba at h ⊢
    rw [h1, h2]
    cases he : s.trk.addDrivers s.cur.drv w.sym ⟨w.bounds, [⟨w.node, w.lsp⟩], false⟩ with
    | error f => rw [he] at h; cases h
    | ok p =>
      rw [he] at h
      exact ih (s := { s with trk := p.1, cur := { s.cur with drv := p.2 } }) rfl rfl h

theorem asleep_start {s : Dfa} (h : Reachable s.net) : Asleep s s :=
  ⟨h, rfl, rfl, rfl, fun _ hn => ⟨hn, rfl⟩, fun _ _ h => h, fun _ _ h => .inl h⟩

end Verif.Proofs

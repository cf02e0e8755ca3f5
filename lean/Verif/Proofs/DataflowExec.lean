import Verif.Proofs.Dataflow

/-! Every statement keeps the invariant of the analysis and extends the paths of its state. -/
namespace Verif.Proofs
open Verif.Spec Verif.Model Verif.Props

theorem lastAt_snoc {b : Bool} {tr : List Wr} {w : Wr} {y : Nat} {p : Int} {loc : TextLoc} :
    LastAt b (tr ++ [w]) y p loc ↔
      (Hits b y p w ∧ w.loc = loc) ∨ (¬ Hits b y p w ∧ LastAt b tr y p loc) := by
  constructor
  · rintro ⟨pre, v, post, heq, hv, hl, hp⟩
    rcases List.eq_nil_or_concat post with rfl | ⟨post', z, rfl⟩
    · have := List.append_inj' heq rfl
      simp only [List.cons.injEq, and_true] at this
      obtain ⟨_, rfl⟩ := this
      exact .inl ⟨hv, hl⟩
    · have h2 : tr ++ [w] = (pre ++ v :: post') ++ [z] := by simp [heq]
      obtain ⟨rfl, h3⟩ := List.append_inj' h2 rfl
      simp only [List.cons.injEq, and_true] at h3
      subst h3
      exact .inr ⟨hp w (by simp), pre, v, post', rfl, hv, hl, fun x hx => hp x (by simp [hx])⟩
  · rintro (⟨h1, h2⟩ | ⟨h1, pre, v, post, rfl, hv, hl, hp⟩)
    · exact ⟨tr, w, [], rfl, h1, h2, by simp⟩
    · refine ⟨pre, v, post ++ [w], by simp, hv, hl, ?_⟩
      intro x hx
      rcases List.mem_append.1 hx with hx | hx
      · exact hp x hx
      · simp only [List.mem_singleton] at hx; subst hx; exact h1

/-- The same control state. -/
structure Same (s s' : Dfa) : Prop where
  node : s'.cur.node = s.cur.node
  cond : s'.cur.cond = s.cur.cond
  reach : s'.cur.reach = s.cur.reach

theorem Same.refl (s : Dfa) : Same s s := ⟨rfl, rfl, rfl⟩

theorem Same.trans {a b c : Dfa} (h : Same a b) (k : Same b c) : Same a c :=
  ⟨k.node.trans h.node, k.cond.trans h.cond, k.reach.trans h.reach⟩

theorem sem_read {c : DfaCtx} {W : List Wr} {s s' : Dfa} (h : ReadLe s s') (hok : Ok c W s)
    {T : List Wr → Prop} (hs : Sem s T) : Sem s' T :=
  sem_mono hok.flow (h.trk ▸ TrkLe.refl _) h.net (by rw [h.cur]) (by rw [h.cur]) hs

/-- One write. -/
theorem handleLvalue_ok {c : DfaCtx} {W : List Wr} (hW : Plain W) {s : Dfa} (hok : Ok c W s)
    {blocking : Bool} {r : Ref} {loc : TextLoc} (hl : IsAssign s.net s.cur.node loc)
    (hw : (⟨r.sym, r.bounds, loc, blocking⟩ : Wr) ∈ W) :
    ∃ s', s.handleLvalue blocking r = .ok s' ∧ Ok c W s' ∧
      Le (if blocking then [] else [⟨r.sym, r.bounds, loc, blocking⟩]) s s' ∧ s'.net = s.net ∧
      Same s s' ∧ ∀ T, Sem s T → Sem s' (app T [⟨r.sym, r.bounds, loc, blocking⟩]) := by
  cases blocking with
  | false =>
    refine ⟨{ s with nba := s.nba ++ [⟨r.sym, r.bounds, r.lsp, s.cur.node⟩] }, rfl, ?_, ?_, rfl,
      ⟨rfl, rfl, rfl⟩, ?_⟩
    · refine ⟨hok.net, hok.trk, hok.flow, hok.vars, hok.ext, ?_⟩
      intro w h
      rcases List.mem_append.1 h with h | h
      · exact hok.nba w h
      · simp only [List.mem_singleton] at h
        subst h
        exact ⟨⟨loc, hl⟩, _, hw, rfl, rfl⟩
    · refine ⟨NetLe.refl _, TrkLe.refl _, ⟨[], by simp⟩, ⟨_, rfl, ?_⟩⟩
      obtain ⟨n, _, h1, h2⟩ := hl
      simp [nbaWr, h1, h2]
    · intro T hs
      refine ⟨?_, fun hr y p l => ?_⟩
      · refine hs.reach.trans ⟨?_, ?_⟩
        · rintro ⟨tr, h⟩; exact ⟨_, tr, h, rfl⟩
        · rintro ⟨_, tr, h, _⟩; exact ⟨tr, h⟩
      · refine (hs.defs hr y p l).trans ⟨?_, ?_⟩
        · rintro ⟨tr, h1, h2⟩
          exact ⟨_, ⟨tr, h1, rfl⟩, lastAt_snoc.2 (.inr ⟨fun h => (by have := h.1; cases this), h2⟩)⟩
        · rintro ⟨_, ⟨tr, h1, rfl⟩, h2⟩
          rcases lastAt_snoc.1 h2 with ⟨h, _⟩ | ⟨_, h⟩
          · have := h.1; cases this
          · exact ⟨tr, h1, h⟩
  | true =>
    obtain ⟨drv', h1, h2, h3, h4⟩ := addDrivers_at hW hok.trk hok.flow.drv
      (fits_write hw) [⟨s.cur.node, r.lsp⟩] ⟨_, _, List.mem_singleton_self _, rfl⟩ false
    obtain ⟨ht', hle, _⟩ := slotFor_ok hok.trk r.sym
    simp only at h1 h2 h3 h4
    have hN : ∀ d, HasN [⟨s.cur.node, r.lsp⟩] d ↔ d = s.cur.node := by
      intro d; simp [HasN, eq_comm]
    have hat : ∀ y p d, DAt (s.trk.slotFor r.sym).1 drv' y p d ↔
        (y = r.sym ∧ InRng r.bounds p ∧ d = s.cur.node) ∨
        (DAt s.trk s.cur.drv y p d ∧ ¬ (y = r.sym ∧ InRng r.bounds p)) := by
      intro y p d
      by_cases hy : y = r.sym
      · subst hy
        rw [h3, hN, inRng_iff]
        simp [and_assoc]
      · rw [h4 y p d hy]
        simp [hy]
    refine ⟨{ s with trk := (s.trk.slotFor r.sym).1, cur := { s.cur with drv := drv' } }, ?_, ?_, ?_,
      rfl, ⟨rfl, rfl, rfl⟩, ?_⟩
    · simp only [Dfa.handleLvalue, Bool.not_true, Bool.false_eq_true, if_false, h1]
    · refine ⟨hok.net, ht', ⟨h2, ?_, hok.flow.node, hok.flow.cond⟩, hok.vars, hok.ext, hok.nba⟩
      intro y p d hd
      rcases (hat y p d).1 hd with ⟨_, _, rfl⟩ | ⟨h, _⟩
      · exact ⟨loc, hl⟩
      · exact hok.flow.assign y p d h
    · exact ⟨NetLe.refl _, hle, ⟨[], by simp⟩, ⟨[], by simp, rfl⟩⟩
    · intro T hs
      refine ⟨?_, fun hr y p l => ?_⟩
      · refine hs.reach.trans ⟨?_, ?_⟩
        · rintro ⟨tr, h⟩; exact ⟨_, tr, h, rfl⟩
        · rintro ⟨_, tr, h, _⟩; exact ⟨tr, h⟩
      · have hdef := hs.defs hr y p l
        have hH : Hits true y p ⟨r.sym, r.bounds, loc, true⟩ ↔ y = r.sym ∧ InRng r.bounds p := by
          simp [Hits, eq_comm]
        constructor
        · rintro ⟨d, hd, ha⟩
          rcases (hat y p d).1 hd with ⟨g1, g2, rfl⟩ | ⟨g1, g2⟩
          · have := isAssign_unique hl ha
            subst this
            obtain ⟨tr, htr⟩ := hs.reach.1 hr
            exact ⟨_, ⟨tr, htr, rfl⟩, lastAt_snoc.2 (.inl ⟨hH.2 ⟨g1, g2⟩, rfl⟩)⟩
          · obtain ⟨tr, htr, hlast⟩ := hdef.1 ⟨d, g1, ha⟩
            exact ⟨_, ⟨tr, htr, rfl⟩, lastAt_snoc.2 (.inr ⟨fun h => g2 (hH.1 h), hlast⟩)⟩
        · rintro ⟨_, ⟨tr, htr, rfl⟩, hlast⟩
          rcases lastAt_snoc.1 hlast with ⟨g1, g2⟩ | ⟨g1, g2⟩
          · simp only at g2
            subst g2
            obtain ⟨e1, e2⟩ := hH.1 g1
            exact ⟨_, (hat y p _).2 (.inl ⟨e1, e2, rfl⟩), hl⟩
          · obtain ⟨d, hd, ha⟩ := hdef.2 ⟨tr, htr, g2⟩
            exact ⟨d, (hat y p d).2 (.inr ⟨hd, fun h => g1 (hH.2 h)⟩), ha⟩

/-- The writes among noted uses. -/
def noteWrites (loc : TextLoc) (blocking : Bool) (notes : List Note) : List Wr :=
  (notes.filter fun x => x.write && !x.ref.auto).map fun x => ⟨x.ref.sym, x.ref.bounds, loc, blocking⟩

theorem sem_dead {s s' : Dfa} {T : List Wr → Prop} (h : Sem s T) (hr : s.cur.reach = false)
    (hr' : s'.cur.reach = false) (ws : List Wr) : Sem s' (app T ws) := by
  refine ⟨?_, fun h' => by rw [hr'] at h'; cases h'⟩
  constructor
  · intro h'; rw [hr'] at h'; cases h'
  · rintro ⟨_, u, hu, _⟩
    have := h.reach.2 ⟨u, hu⟩
    rw [hr] at this; cases this

theorem noteRefs_ok {c : DfaCtx} {W : List Wr} (hW : Plain W) {blocking : Bool} {loc : TextLoc}
    (notes : List Note) : ∀ s : Dfa, Ok c W s →
    ((∃ x ∈ notes, x.write = true) → IsAssign s.net s.cur.node loc) →
    (∀ w ∈ noteWrites loc blocking notes, w ∈ W) →
    ∃ s', s.noteRefs c blocking notes = .ok s' ∧ Ok c W s' ∧
      Le (if blocking || !s.cur.reach then [] else noteWrites loc blocking notes) s s' ∧
      s'.net.g.nodes = s.net.g.nodes ∧ Same s s' ∧
      ((∀ x ∈ notes, x.write = false) → ReadLe s s') ∧
      ∀ T, Sem s T → Sem s' (app T (noteWrites loc blocking notes)) := by
  induction notes with
  | nil =>
    intro s hok _ _
    exact ⟨s, rfl, hok, by simpa [noteWrites] using Le.refl s, rfl, .refl s,
      fun _ => ReadLe.refl hok.net, fun T h => by
        rw [show noteWrites loc blocking [] = [] from rfl, app_nil]; exact h⟩
  | cons x xs ih =>
    intro s hok hl hw
    have step : ∃ s1, s.noteRef c blocking x = .ok s1 ∧ Ok c W s1 ∧
        Le (if blocking || !s.cur.reach then [] else noteWrites loc blocking [x]) s s1 ∧
        s1.net.g.nodes = s.net.g.nodes ∧ Same s s1 ∧ (x.write = false → ReadLe s s1) ∧
        ∀ T, Sem s T → Sem s1 (app T (noteWrites loc blocking [x])) := by
      unfold Dfa.noteRef
      by_cases hr : s.cur.reach = true
      · simp only [hr, Bool.not_true, Bool.false_eq_true, if_false, Bool.or_false]
        by_cases ha : x.ref.auto = true
        · have : noteWrites loc blocking [x] = [] := by simp [noteWrites, ha]
          simp only [ha, if_true, this, ite_self]
          exact ⟨s, rfl, hok, Le.refl s, rfl, .refl s, fun _ => ReadLe.refl hok.net,
            fun T h => by rw [app_nil]; exact h⟩
        · simp only [ha, Bool.false_eq_true, if_false]
          by_cases hwr : x.write = true
          · have he : noteWrites loc blocking [x] = [⟨x.ref.sym, x.ref.bounds, loc, blocking⟩] := by
              simp [noteWrites, ha, hwr]
            simp only [hwr, if_true, he]
            obtain ⟨s1, g1, g2, g3, g4, g5, g6⟩ := handleLvalue_ok hW hok (blocking := blocking)
              (r := x.ref) (hl ⟨x, List.mem_cons_self, hwr⟩) (hw _ (by
                simp only [noteWrites, List.filter_cons, hwr, ha]; simp))
            exact ⟨s1, g1, g2, by simpa using g3, by rw [g4], g5, fun h => (by cases h), g6⟩
          · have he : noteWrites loc blocking [x] = [] := by simp [noteWrites, hwr]
            simp only [hwr, Bool.false_eq_true, if_false, he, ite_self]
            obtain ⟨s1, g1, g2⟩ := handleRvalue_ok hok x.ref
            exact ⟨s1, g1, g2.ok hok, g2.le, g2.nodes,
              ⟨by rw [g2.cur], by rw [g2.cur], by rw [g2.cur]⟩, fun _ => g2,
              fun T h => by rw [app_nil]; exact sem_read g2 hok h⟩
      · simp only [Bool.not_eq_true] at hr
        simp only [hr, Bool.not_false, if_true, Bool.or_true]
        exact ⟨s, rfl, hok, Le.refl s, rfl, .refl s, fun _ => ReadLe.refl hok.net,
          fun T h => sem_dead h hr hr _⟩
    obtain ⟨s1, a1, a2, a3, a4, a5, a6, a7⟩ := step
    have happ : noteWrites loc blocking (x :: xs) =
        noteWrites loc blocking [x] ++ noteWrites loc blocking xs := by
      unfold noteWrites
      rw [← List.map_append, ← List.filter_append]
      rfl
    obtain ⟨s2, b1, b2, b3, b4, b5, b6, b7⟩ := ih s1 a2
      (fun ⟨y, hy, hyw⟩ => by
        rw [a5.node]
        exact isAssign_mono a3.net (hl ⟨y, List.mem_cons_of_mem _ hy, hyw⟩))
      (fun w h => hw w (by rw [happ]; exact List.mem_append_right _ h))
    refine ⟨s2, by simp only [Dfa.noteRefs, a1, b1], b2, ?_, b4.trans a4, a5.trans b5, ?_, ?_⟩
    · have := a3.trans b3 a2
      rw [a5.reach] at this
      rw [happ]
      split
      · rename_i h; simpa [h] using this
      · rename_i h; simpa [h] using this
    · intro h
      exact (a6 (h x List.mem_cons_self)).trans (b6 fun y hy => h y (List.mem_cons_of_mem _ hy))
    · intro T h
      rw [happ, ← app_app]
      exact b7 _ (a7 T h)

theorem readRefs_ok {c : DfaCtx} {W : List Wr} (hW : Plain W) (blocking : Bool) (rs : List Ref)
    {s : Dfa} (hok : Ok c W s) :
    ∃ s', s.noteRefs c blocking (rs.map fun r => ⟨false, r⟩) = .ok s' ∧ ReadLe s s' := by
  have hno : ∀ x ∈ rs.map (fun r => (⟨false, r⟩ : Note)), x.write = false := by
    intro x hx
    obtain ⟨r, _, rfl⟩ := List.mem_map.1 hx
    rfl
  obtain ⟨s', h1, _, _, _, _, h6, _⟩ := noteRefs_ok hW (blocking := blocking) (loc := {})
    (rs.map fun r => ⟨false, r⟩) s hok
    (fun ⟨x, hx, h⟩ => by rw [hno x hx] at h; cases h)
    (fun w hw => by
      obtain ⟨x, hx, _⟩ := List.mem_map.1 hw
      obtain ⟨hx1, hx2⟩ := List.mem_filter.1 hx
      rw [hno x hx1] at hx2; cases hx2)
  exact ⟨s', h1, h6 hno⟩

/-! ### Assignments -/

/-- A change of the graph with new nodes, and the queue; the control state may change. -/
structure GrowLe (s s' : Dfa) : Prop where
  reach : Reachable s'.net
  net : NetLe s.net s'.net
  trk : s'.trk = s.trk
  nba : s'.nba = s.nba
  drv : s'.cur.drv = s.cur.drv
  flow : s'.cur.reach = s.cur.reach
  queue : Queued s s'

theorem GrowLe.ok {c : DfaCtx} {W : List Wr} {s s' : Dfa} (h : GrowLe s s') (hok : Ok c W s)
    (hn : ∀ n, s'.cur.node = some n → n ∈ s'.net.g.nodes)
    (hc : ∀ n, s'.cur.cond = some n → n ∈ s'.net.g.nodes) : Ok c W s' := by
  refine ⟨h.reach, h.trk ▸ hok.trk, ⟨?_, ?_, hn, hc⟩,
    fun y b n hv => h.net.nodes n (hok.vars y b n hv), fun n he => h.net.nodes n (hok.ext n he), ?_⟩
  · rw [h.trk, h.drv]; exact hok.flow.drv
  · rw [h.trk, h.drv]
    intro y p d hd
    obtain ⟨loc, hl⟩ := hok.flow.assign y p d hd
    exact ⟨loc, isAssign_mono h.net hl⟩
  · intro w hw
    rw [h.nba] at hw
    obtain ⟨⟨loc, h1⟩, h2⟩ := hok.nba w hw
    exact ⟨⟨loc, isAssign_mono h.net h1⟩, h2⟩

theorem GrowLe.le {s s' : Dfa} (h : GrowLe s s') : Le [] s s' :=
  le_frame h.net h.trk h.nba h.queue

theorem GrowLe.trans {a b d : Dfa} (h : GrowLe a b) (k : GrowLe b d) : GrowLe a d :=
  ⟨k.reach, h.net.trans k.net, k.trk.trans h.trk, k.nba.trans h.nba, k.drv.trans h.drv,
    k.flow.trans h.flow, h.queue.trans k.queue k.net⟩

theorem GrowLe.sem {c : DfaCtx} {W : List Wr} {s s' : Dfa} (h : GrowLe s s') (hok : Ok c W s)
    {T : List Wr → Prop} (hs : Sem s T) : Sem s' T :=
  sem_mono hok.flow (h.trk ▸ TrkLe.refl _) h.net h.drv h.flow hs

theorem dfa_newNode {s : Dfa} (hr : Reachable s.net) (d : NodeData) :
    ∃ s' n, s.newNode d = .ok (s', n) ∧ GrowLe s s' ∧ s'.cur = s.cur ∧ s'.queue = s.queue ∧
      s'.net.g.nodes = s.net.g.nodes ++ [n] ∧ n ∉ s.net.g.nodes ∧ s'.net.data n = d ∧
      (∀ a b, Joined s'.net a b ↔ Joined s.net a b) ∧
      ∀ a b, (a = n ∨ b = n) → ¬ Joined s'.net a b := by
  obtain ⟨net', h1, h2, h3, h4, h5, h6, h7, h8⟩ := addNode_le hr d
  exact ⟨{ s with net := net' }, s.net.g.nextNode, by simp [Dfa.newNode, h1],
    ⟨h2, h3, rfl, rfl, rfl, rfl, .of_eq rfl⟩, rfl, rfl, h4, h5, h6, h7, h8⟩

theorem dfa_addPlain {s : Dfa} (hr : Reachable s.net) {a b : Nat} (ha : a ∈ s.net.g.nodes)
    (hb : b ∈ s.net.g.nodes) :
    ∃ s', s.addPlain a b = .ok s' ∧ GrowLe s s' ∧ s'.cur = s.cur ∧ s'.queue = s.queue ∧
      s'.net.g.nodes = s.net.g.nodes ∧
      ∀ x y, Joined s'.net x y ↔ Joined s.net x y ∨ (a = x ∧ b = y) := by
  obtain ⟨net', h1, h2, h3, h4, h5⟩ := addEdge_le hr ha hb
  exact ⟨{ s with net := net' }, by simp [Dfa.addPlain, h1],
    ⟨h2, h3, rfl, rfl, rfl, rfl, .of_eq rfl⟩, rfl, rfl, h4, h5⟩

/-- `updateNode` on a node of the graph. -/
theorem updateNode_ok {c : DfaCtx} {W : List Wr} {s : Dfa} (hok : Ok c W s) {n : Nat}
    (hn : n ∈ s.net.g.nodes) (conditional : Bool) :
    ∃ s', s.updateNode n conditional = .ok s' ∧ GrowLe s s' ∧ Ok c W s' ∧ s'.queue = s.queue ∧
      s'.net.g.nodes = s.net.g.nodes ∧ s'.cur.node = some n ∧
      s'.cur.cond = (if conditional then some n else none) ∧
      ∀ x y, Joined s'.net x y ↔ Joined s.net x y ∨ (s.cur.cond = some x ∧ y = n) := by
  have fin : ∀ s1 : Dfa, GrowLe s s1 → s1.net.g.nodes = s.net.g.nodes → Ok c W
      { s1 with cur := { s1.cur with cond := if conditional then some n else none, node := some n } } := by
    intro s1 h hnodes
    refine GrowLe.ok (s := s) ⟨h.reach, h.net, h.trk, h.nba, h.drv, h.flow, h.queue⟩ hok ?_ ?_
    · intro k hk; cases hk; exact hnodes ▸ hn
    · intro k hk
      simp only at hk
      split at hk
      · cases hk; exact hnodes ▸ hn
      · cases hk
  unfold Dfa.updateNode
  cases hc : s.cur.cond with
  | none =>
    have hg : GrowLe s s := ⟨hok.net, NetLe.refl _, rfl, rfl, rfl, rfl, .of_eq rfl⟩
    refine ⟨_, rfl, ⟨hok.net, NetLe.refl _, rfl, rfl, rfl, rfl, .of_eq rfl⟩, fin s hg rfl, rfl, rfl,
      rfl, rfl, ?_⟩
    intro x y; simp
  | some k =>
    obtain ⟨s1, h1, h2, h3, h3q, h4, h5⟩ := dfa_addPlain hok.net (hok.flow.cond k hc) hn
    simp only [h1]
    refine ⟨_, rfl, ⟨h2.reach, h2.net, h2.trk, h2.nba, h2.drv, h2.flow, h2.queue⟩, fin s1 h2 h4, h3q,
      h4, rfl, rfl, ?_⟩
    intro x y
    rw [h5]
    simp [eq_comm]

/-- The assignment nodes created between two states are those of `ls`, each entered from `cond`, and
there is one for each of `ls`. -/
def NewFrom (ls : List TextLoc) (cond : Option Nat) (s s' : Dfa) : Prop :=
  (∀ n ∈ s'.net.g.nodes, n ∉ s.net.g.nodes → ∀ l, s'.net.data n = .assignment l →
    l ∈ ls ∧ ∀ k, cond = some k → Joined s'.net k n) ∧
  ∀ l ∈ ls, ∃ n ∈ s'.net.g.nodes, n ∉ s.net.g.nodes ∧ s'.net.data n = .assignment l

theorem newFrom_trans {ls ms : List TextLoc} {cond : Option Nat} {a b d : Dfa} (h : NewFrom ls cond a b)
    (k : NewFrom ms cond b d) (hm : NetLe a.net b.net) (hn : NetLe b.net d.net) :
    NewFrom (ls ++ ms) cond a d := by
  refine ⟨fun n hn1 hn2 l hl => ?_, fun l hl => ?_⟩
  · by_cases hb : n ∈ b.net.g.nodes
    · obtain ⟨h1, h2⟩ := h.1 n hb hn2 l (by rw [← hn.data n hb]; exact hl)
      exact ⟨List.mem_append_left _ h1, fun k hk => hn.join _ _ (h2 k hk)⟩
    · obtain ⟨h1, h2⟩ := k.1 n hn1 hb l hl
      exact ⟨List.mem_append_right _ h1, h2⟩
  · rcases List.mem_append.1 hl with hl | hl
    · obtain ⟨n, h1, h2, h3⟩ := h.2 l hl
      exact ⟨n, hn.nodes n h1, h2, by rw [hn.data n h1, h3]⟩
    · obtain ⟨n, h1, h2, h3⟩ := k.2 l hl
      exact ⟨n, h1, fun h => h2 (hm.nodes n h), h3⟩

theorem newFrom_same {cond : Option Nat} {a b : Dfa}
    (h : b.net.g.nodes = a.net.g.nodes) : NewFrom [] cond a b :=
  ⟨fun n h1 h2 => absurd (h ▸ h1) h2, by simp⟩

theorem startAssign_ok {c : DfaCtx} {W : List Wr} {s : Dfa} (hok : Ok c W s) (loc : TextLoc) :
    ∃ s' n, s.startAssign loc = .ok s' ∧ GrowLe s s' ∧ Ok c W s' ∧ s'.cur.node = some n ∧
      IsAssign s'.net (some n) loc ∧ n ∉ s.net.g.nodes ∧ s'.cur.cond = none ∧
      s'.queue = s.queue ∧ NewFrom [loc] s.cur.cond s s' := by
  obtain ⟨s1, n, h1, h2, h3, h3q, h4, h5, h6, h7, _⟩ := dfa_newNode hok.net (.assignment loc)
  have hok1 : Ok c W s1 := h2.ok hok
    (fun k hk => h2.net.nodes k (hok.flow.node k (by rw [← h3]; exact hk)))
    (fun k hk => h2.net.nodes k (hok.flow.cond k (by rw [← h3]; exact hk)))
  have hn1 : n ∈ s1.net.g.nodes := by rw [h4]; simp
  obtain ⟨s2, g1, g2, g3, g3q, g4, g5, g6, g7⟩ := updateNode_ok hok1 hn1 false
  refine ⟨s2, n, by simp only [Dfa.startAssign, h1, g1], h2.trans g2, g3, g5,
    ⟨n, g4 ▸ hn1, rfl, by rw [g2.net.data n hn1, h6]⟩, h5, g6, g3q.trans h3q, ?_, fun l hl => ?_⟩
  rotate_left
  · cases List.mem_singleton.1 hl
    exact ⟨n, g4 ▸ hn1, h5, by rw [g2.net.data n hn1, h6]⟩
  intro m hm1 hm2 l hl
  rw [g4, h4] at hm1
  have hm : m = n := by
    rcases List.mem_append.1 hm1 with h | h
    · exact absurd h hm2
    · simpa using h
  subst hm
  rw [g2.net.data m hn1, h6] at hl
  cases hl
  refine ⟨List.mem_singleton.2 rfl, fun k hk => ?_⟩
  rw [g7]
  exact .inr ⟨by rw [h3]; exact hk, rfl⟩

theorem segLhs_ok {c : DfaCtx} {W : List Wr} (hW : Plain W) {blocking : Bool} {loc : TextLoc}
    (rs : List Ref) : ∀ s : Dfa, Ok c W s → IsAssign s.net s.cur.node loc →
    (∀ r ∈ rs, (⟨r.sym, r.bounds, loc, blocking⟩ : Wr) ∈ W) →
    ∃ s', s.segLhs blocking rs = .ok s' ∧ Ok c W s' ∧
      Le (if blocking then [] else rs.map fun r => ⟨r.sym, r.bounds, loc, blocking⟩) s s' ∧
      s'.net = s.net ∧ Same s s' ∧
      ∀ T, Sem s T → Sem s' (app T (rs.map fun r => ⟨r.sym, r.bounds, loc, blocking⟩)) := by
  induction rs with
  | nil =>
    intro s hok _ _
    refine ⟨s, rfl, hok, by simpa using Le.refl s, rfl, .refl s, fun T h => ?_⟩
    rw [List.map_nil, app_nil]; exact h
  | cons r rs ih =>
    intro s hok hl hw
    obtain ⟨s1, a1, a2, a3, a4, a5, a6⟩ := handleLvalue_ok hW hok hl (hw r List.mem_cons_self)
    obtain ⟨s2, b1, b2, b3, b4, b5, b6⟩ := ih s1 a2 (by rw [a5.node, a4]; exact hl)
      fun x hx => hw x (List.mem_cons_of_mem _ hx)
    refine ⟨s2, by simp only [Dfa.segLhs, a1, b1], b2, ?_, b4.trans a4, a5.trans b5, ?_⟩
    · have := a3.trans b3 a2
      split
      · rename_i h; simpa [h] using this
      · rename_i h; simpa [h] using this
    · intro T h
      have := b6 _ (a6 T h)
      rw [app_app] at this
      exact this

/-- A change of the graph (no new assignments) and the queue. -/
structure RhsLe (s s' : Dfa) : Prop where
  grow : GrowLe s s'
  cur : s'.cur = s.cur
  new : ∀ n ∈ s'.net.g.nodes, n ∉ s.net.g.nodes → ∀ l, s'.net.data n ≠ .assignment l

theorem ReadLe.rhs {s s' : Dfa} (h : ReadLe s s') : RhsLe s s' :=
  ⟨⟨h.reach, h.net, h.trk, h.nba, by rw [h.cur], by rw [h.cur], h.queue⟩, h.cur,
    fun n h1 h2 => absurd (h.nodes ▸ h1) h2⟩

theorem RhsLe.ok {c : DfaCtx} {W : List Wr} {s s' : Dfa} (h : RhsLe s s') (hok : Ok c W s) :
    Ok c W s' :=
  h.grow.ok hok (fun k hk => h.grow.net.nodes k (hok.flow.node k (by rw [← h.cur]; exact hk)))
    (fun k hk => h.grow.net.nodes k (hok.flow.cond k (by rw [← h.cur]; exact hk)))

theorem RhsLe.trans {a b d : Dfa} (h : RhsLe a b) (k : RhsLe b d) : RhsLe a d := by
  refine ⟨h.grow.trans k.grow, k.cur.trans h.cur, fun n h1 h2 l => ?_⟩
  by_cases hb : n ∈ b.net.g.nodes
  · rw [k.grow.net.data n hb]; exact h.new n hb h2 l
  · exact k.new n h1 hb l

theorem segSrc_ok {c : DfaCtx} {W : List Wr} (hW : Plain W) (blocking : Bool) (x : RSrc) {s : Dfa}
    (hok : Ok c W s) : ∃ s', s.segSrc c blocking x = .ok s' ∧ RhsLe s s' := by
  cases x with
  | lsp r =>
    obtain ⟨s', h1, h2⟩ := handleRvalue_ok hok r
    exact ⟨s', h1, h2.rhs⟩
  | «opaque» rs =>
    obtain ⟨s', h1, h2⟩ := readRefs_ok hW blocking rs hok
    exact ⟨s', h1, h2.rhs⟩
  | padding => exact ⟨s, rfl, (ReadLe.refl hok.net).rhs⟩
  | constant v w l =>
    unfold Dfa.segSrc
    cases hn : s.cur.node with
    | none => exact ⟨s, rfl, (ReadLe.refl hok.net).rhs⟩
    | some n =>
      obtain ⟨s1, k, h1, h2, h3, _, h4, h5, h6, _⟩ := dfa_newNode hok.net (.constant v w l)
      obtain ⟨s2, g1, g2, g3, _, g4, _⟩ := dfa_addPlain (s := s1) h2.reach (a := k) (b := n)
        (by rw [h4]; simp) (h2.net.nodes n (hok.flow.node n hn))
      refine ⟨s2, by simp only [h1, g1], h2.trans g2, g3.trans h3, ?_⟩
      intro m hm1 hm2 l'
      rw [g4, h4] at hm1
      have hm : m = k := by
        rcases List.mem_append.1 hm1 with h | h
        · exact absurd h hm2
        · simpa using h
      subst hm
      rw [g2.net.data m (by rw [h4]; simp), h6]
      simp

theorem segRhs_ok {c : DfaCtx} {W : List Wr} (hW : Plain W) (blocking : Bool) (xs : List RSrc) :
    ∀ s : Dfa, Ok c W s → ∃ s', s.segRhs c blocking xs = .ok s' ∧ RhsLe s s' := by
  induction xs with
  | nil => intro s hok; exact ⟨s, rfl, (ReadLe.refl hok.net).rhs⟩
  | cons x xs ih =>
    intro s hok
    obtain ⟨s1, h1, h2⟩ := segSrc_ok hW blocking x hok
    obtain ⟨s2, g1, g2⟩ := ih s1 (h2.ok hok)
    exact ⟨s2, by simp only [Dfa.segRhs, h1, g1], h2.trans g2⟩

theorem segments_ok {c : DfaCtx} {W : List Wr} (hW : Plain W) {blocking : Bool} {loc : TextLoc}
    {node cond : Option Nat} (segs : List DSeg) : ∀ s : Dfa, Ok c W s →
    (∀ n, node = some n → n ∈ s.net.g.nodes) → (∀ n, cond = some n → n ∈ s.net.g.nodes) →
    (∀ w ∈ asgWrites loc blocking (.aligned segs), w ∈ W) →
    ∃ s', s.segments c blocking node cond segs = .ok s' ∧ Ok c W s' ∧
      Le (if blocking then [] else asgWrites loc blocking (.aligned segs)) s s' ∧
      s'.cur.reach = s.cur.reach ∧
      (∀ T, Sem s T → Sem s' (app T (asgWrites loc blocking (.aligned segs)))) ∧
      NewFrom (segs.map (·.loc)) cond s s' ∧
      (∀ l, (segs.map (·.loc)).getLast? = some l → s'.cur.cond = none ∧
        ∃ n, s'.cur.node = some n ∧ n ∉ s.net.g.nodes ∧ IsAssign s'.net (some n) l) ∧
      (segs = [] → s' = s) := by
  induction segs with
  | nil =>
    intro s hok _ _ _
    refine ⟨s, rfl, hok, by simpa [asgWrites] using Le.refl s, rfl, fun T h => ?_, newFrom_same rfl,
      by simp, fun _ => rfl⟩
    rw [asgWrites, List.flatMap_nil, app_nil]; exact h
  | cons g gs ih =>
    intro s hok hnode hcond hw
    have hok0 : Ok c W ({ s with cur := { s.cur with node := node, cond := cond } } : Dfa) :=
      ⟨hok.net, hok.trk, ⟨hok.flow.drv, hok.flow.assign, hnode, hcond⟩, hok.vars, hok.ext, hok.nba⟩
    have hsem0 : ∀ T, Sem s T →
        Sem ({ s with cur := { s.cur with node := node, cond := cond } } : Dfa) T :=
      fun T h => ⟨h.reach, h.defs⟩
    obtain ⟨s1, n, a1, a2, a3, a4, a5, a6, a7, _, a8⟩ := startAssign_ok hok0 g.loc
    obtain ⟨s2, b1, b2, b3, b4, b5, b6⟩ := segLhs_ok hW (blocking := blocking) (loc := g.loc) g.lhs s1 a3
      (by rw [a4]; exact a5)
      (fun r hr => hw _ (List.mem_flatMap.2 ⟨g, List.mem_cons_self, List.mem_map.2 ⟨r, hr, rfl⟩⟩))
    obtain ⟨s3, d1, d2⟩ := segRhs_ok hW blocking g.rhs s2 b2
    have hok3 := d2.ok b2
    have hnet13 : NetLe s1.net s3.net := b4 ▸ d2.grow.net
    have hnet3 : NetLe s.net s3.net := a2.net.trans hnet13
    obtain ⟨s4, e1, e2, e3, e4, e5, e6, e7, e8⟩ := ih s3 hok3
      (fun k hk => hnet3.nodes k (hnode k hk)) (fun k hk => hnet3.nodes k (hcond k hk))
      (fun w hr => hw w (by
        obtain ⟨x, hx, hr⟩ := List.mem_flatMap.1 hr
        exact List.mem_flatMap.2 ⟨x, List.mem_cons_of_mem _ hx, hr⟩))
    have hreach : s3.cur.reach = s.cur.reach := by
      rw [d2.cur, b5.reach]; exact a2.flow
    have hnew3 : NewFrom [g.loc] cond s s3 := by
      have h1 : NewFrom [g.loc] cond s s1 := a8
      have h2 : NewFrom [] cond s1 s3 :=
        ⟨fun m hm1 hm2 l hl => absurd hl (d2.new m hm1 (by rw [b4]; exact hm2) l), by simp⟩
      exact newFrom_trans h1 h2 a2.net hnet13
    refine ⟨s4, ?_, e2, ?_, e4.trans hreach, ?_, newFrom_trans hnew3 e6 hnet3 e3.net, ?_, by simp⟩
    · simp only [Dfa.segments, a1, Dfa.segBody, b1, d1, e1]
    · have h01 : Le [] s s1 := ⟨a2.net, a2.trk ▸ TrkLe.refl _, a2.queue, ⟨[], by simp [a2.nba], rfl⟩⟩
      have := ((h01.trans b3 a3).trans d2.grow.le b2).trans e3 hok3
      rw [asgWrites, List.flatMap_cons]
      simp only [asgWrites] at this
      split
      · rename_i h; simpa [h] using this
      · rename_i h; simpa [h] using this
    · intro T h
      have h3 := d2.grow.sem b2 (b6 _ (a2.sem hok0 (hsem0 T h)))
      have := e5 _ h3
      rw [app_app] at this
      rw [asgWrites, List.flatMap_cons]
      exact this
    · intro l hl
      by_cases hgs : gs = []
      · rw [e8 hgs]
        rw [hgs] at hl
        simp only [List.map_cons, List.map_nil, List.getLast?_singleton, Option.some.injEq] at hl
        subst hl
        have hcur : s3.cur = s2.cur := d2.cur
        exact ⟨by rw [hcur, b5.cond, a7], n, by rw [hcur, b5.node, a4], a6, isAssign_mono hnet13 a5⟩
      · obtain ⟨f1, m, f2, f3, f4⟩ := e7 l (by
          obtain ⟨x, xs, rfl⟩ := List.exists_cons_of_ne_nil hgs
          rw [List.map_cons, List.map_cons, List.getLast?_cons_cons] at hl
          exact hl)
        exact ⟨f1, m, f2, fun h => f3 (hnet3.nodes m h), f4⟩

/-- The non-blocking writes recorded by an assignment. -/
def asgNba (r : Bool) (loc : TextLoc) (blocking : Bool) (a : Asg) : List Wr :=
  nbaWrites r (.assign loc blocking a)

theorem noteWrites_eq (loc : TextLoc) (blocking : Bool) (notes : List Note) :
    noteWrites loc blocking notes = asgWrites loc blocking (.legacy notes) := by
  simp only [noteWrites, asgWrites, targets, List.map_map]
  rfl

theorem assign_ok {c : DfaCtx} {W : List Wr} (hW : Plain W) {s : Dfa} (hok : Ok c W s)
    (loc : TextLoc) (blocking : Bool) (a : Asg) (hw : ∀ w ∈ asgWrites loc blocking a, w ∈ W) :
    ∃ s', s.assign c loc blocking a = .ok s' ∧ Ok c W s' ∧
      Le (asgNba s.cur.reach loc blocking a) s s' ∧ s'.cur.reach = s.cur.reach ∧
      (∀ T, Sem s T → Sem s' (app T (asgWrites loc blocking a))) ∧
      NewFrom (asgLocs loc a) s.cur.cond s s' ∧
      (∀ l, (asgLocs loc a).getLast? = some l → s'.cur.cond = none ∧
        ∃ n, s'.cur.node = some n ∧ n ∉ s.net.g.nodes ∧ IsAssign s'.net (some n) l) := by
  cases a with
  | legacy notes =>
    obtain ⟨s1, n, a1, a2, a3, a4, a5, a6, a7, _, a8⟩ := startAssign_ok hok loc
    obtain ⟨s2, b1, b2, b3, b4, b5, b6, b7⟩ := noteRefs_ok hW (blocking := blocking) (loc := loc) notes
      s1 a3 (fun _ => by rw [a4]; exact a5) (by rw [noteWrites_eq]; exact hw)
    refine ⟨s2, by simp only [Dfa.assign, a1, b1], b2, ?_, b5.reach.trans a2.flow, ?_, ?_, ?_⟩
    · have := a2.le.trans b3 a3
      rw [a2.flow, noteWrites_eq] at this
      unfold asgNba nbaWrites
      cases blocking with
      | true => simpa using this
      | false =>
        cases hr : s.cur.reach <;> simpa [hr] using this
    · intro T h
      rw [← noteWrites_eq]
      exact b7 T (a2.sem hok h)
    · have := newFrom_trans a8 (newFrom_same b4) a2.net b3.net
      exact this
    · intro l hl
      simp only [asgLocs, List.getLast?_singleton, Option.some.injEq] at hl
      subst hl
      exact ⟨b5.cond.trans a7, n, b5.node.trans a4, a6, isAssign_mono b3.net a5⟩
  | aligned segs =>
    obtain ⟨s', h1, h2, h3, h4, h5, h6, h7, _⟩ := segments_ok hW (blocking := blocking) (loc := loc)
      (node := s.cur.node) (cond := s.cur.cond) segs s hok hok.flow.node hok.flow.cond
      hw
    refine ⟨s', h1, h2, ?_, h4, h5, h6, h7⟩
    unfold asgNba nbaWrites
    cases blocking with
    | true => simpa using h3
    | false => simpa using h3

theorem branch_ok {c : DfaCtx} {W : List Wr} {s : Dfa} (hok : Ok c W s) (isCase : Bool)
    (loc : TextLoc) :
    ∃ s' n, s.branch isCase loc = .ok s' ∧ GrowLe s s' ∧ Ok c W s' ∧ s'.cur.node = some n ∧
      s'.cur.cond = some n ∧ n ∉ s.net.g.nodes ∧ n ∈ s'.net.g.nodes ∧
      s'.net.data n = (if isCase then .case loc else .conditional loc) ∧ s'.queue = s.queue ∧
      (∀ x y, Joined s'.net x y ↔ Joined s.net x y ∨ (s.cur.cond = some x ∧ y = n)) ∧
      s'.net.g.nodes = s.net.g.nodes ++ [n] := by
  obtain ⟨s1, n, h1, h2, h3, h3q, h4, h5, h6, h7, _⟩ := dfa_newNode hok.net
    (if isCase then .case loc else .conditional loc)
  have hok1 : Ok c W s1 := h2.ok hok
    (fun k hk => h2.net.nodes k (hok.flow.node k (by rw [← h3]; exact hk)))
    (fun k hk => h2.net.nodes k (hok.flow.cond k (by rw [← h3]; exact hk)))
  have hn1 : n ∈ s1.net.g.nodes := by rw [h4]; simp
  obtain ⟨s2, g1, g2, g3, g3q, g4, g5, g6, g7⟩ := updateNode_ok hok1 hn1 true
  refine ⟨s2, n, by simp only [Dfa.branch, h1, g1], h2.trans g2, g3, g5, g6, h5, g4 ▸ hn1,
    by rw [g2.net.data n hn1, h6], g3q.trans h3q, ?_, g4.trans h4⟩
  intro x y
  rw [g7, h7, h3]

/-! ### Joining states -/

theorem mergeNodes_ok {s : Dfa} (hr : Reachable s.net) {a b : Option Nat}
    (ha : ∀ n, a = some n → n ∈ s.net.g.nodes) (hb : ∀ n, b = some n → n ∈ s.net.g.nodes) :
    ∃ s' r, s.mergeNodes a b = .ok (s', r) ∧ RhsLe s s' ∧ s'.queue = s.queue ∧
      ∀ n, r = some n → n ∈ s'.net.g.nodes := by
  have hrefl : RhsLe s s := (ReadLe.refl hr).rhs
  cases a with
  | none =>
    cases b with
    | none => exact ⟨s, none, rfl, hrefl, rfl, by simp⟩
    | some b => exact ⟨s, some b, rfl, hrefl, rfl, hb⟩
  | some a =>
    cases b with
    | none => exact ⟨s, some a, rfl, hrefl, rfl, ha⟩
    | some b =>
      unfold Dfa.mergeNodes
      by_cases hab : a = b
      · simp only [hab, ne_eq, not_true_eq_false, if_false]
        exact ⟨s, none, rfl, hrefl, rfl, by simp⟩
      · simp only [ne_eq, hab, not_false_eq_true, if_true]
        obtain ⟨s1, k, h1, h2, h3, h3q, h4, h5, h6, _⟩ := dfa_newNode hr .merge
        have hk : k ∈ s1.net.g.nodes := by rw [h4]; simp
        obtain ⟨s2, g1, g2, g3, g3q, g4, _⟩ := dfa_addPlain (s := s1) h2.reach
          (h2.net.nodes a (ha a rfl)) hk
        obtain ⟨s3, k1, k2, k3, k3q, k4, _⟩ := dfa_addPlain (s := s2) g2.reach
          (g2.net.nodes _ (h2.net.nodes b (hb b rfl))) (g2.net.nodes k hk)
        refine ⟨s3, some k, by simp only [h1, g1, k1],
          ⟨(h2.trans g2).trans k2, k3.trans (g3.trans h3), ?_⟩, k3q.trans (g3q.trans h3q), ?_⟩
        · intro m hm1 hm2 l
          rw [k4, g4, h4] at hm1
          have hm : m = k := by
            rcases List.mem_append.1 hm1 with h | h
            · exact absurd h hm2
            · simpa using h
          subst hm
          rw [k2.net.data m (g2.net.nodes m hk), g2.net.data m hk, h6]
          simp
        · intro n hn; cases hn
          exact k2.net.nodes k (g2.net.nodes k hk)

theorem joinState_ok {c : DfaCtx} {W : List Wr} (hW : Plain W) {s : Dfa} (hok : Ok c W s)
    {other : Flow} (ho : FlowOk W s.trk s.net other) :
    ∃ s', s.joinState other = .ok s' ∧ Ok c W s' ∧ Le [] s s' ∧
      s'.cur.reach = (s.cur.reach || other.reach) ∧
      (∀ n ∈ s'.net.g.nodes, n ∉ s.net.g.nodes → ∀ l, s'.net.data n ≠ .assignment l) ∧
      ∀ T U, Sem s T → Sem { s with cur := other } U → Sem s' fun tr => T tr ∨ U tr := by
  have hdead : ∀ {x : Dfa} {T : List Wr → Prop}, Sem x T → x.cur.reach = false → ∀ tr, ¬ T tr := by
    intro x T h hr tr ht
    have := h.reach.2 ⟨tr, ht⟩
    rw [hr] at this; cases this
  unfold Dfa.joinState
  by_cases heq : s.cur.reach = other.reach
  · rw [if_pos heq]
    obtain ⟨drv', h1, h2, h3⟩ := merge_at hW hok.trk hok.flow.drv ho.drv
    obtain ⟨s2, n, g1, g2, g2q, g3⟩ := mergeNodes_ok
      (s := { s with trk := s.trk, cur := { s.cur with drv := drv' } }) hok.net
      (a := s.cur.node) (b := other.node) hok.flow.node ho.node
    obtain ⟨s3, k, k1, k2, k2q, k3⟩ := mergeNodes_ok (s := s2) g2.grow.reach (a := s2.cur.cond)
      (b := other.cond)
      (fun m hm => g2.grow.net.nodes m (hok.flow.cond m (by rw [g2.cur] at hm; exact hm)))
      (fun m hm => g2.grow.net.nodes m (ho.cond m hm))
    have hnet : NetLe s.net s3.net := g2.grow.net.trans k2.grow.net
    have hcur : s3.cur = { s.cur with drv := drv' } := k2.cur.trans g2.cur
    have htrk : s3.trk = s.trk := k2.grow.trk.trans g2.grow.trk
    have hnba : s3.nba = s.nba := k2.grow.nba.trans g2.grow.nba
    have hflow : ∀ y p d, DAt s.trk drv' y p d → ∃ loc, IsAssign s.net d loc := by
      intro y p d hd
      rcases (h3 y p d).1 hd with hd | hd
      · exact hok.flow.assign y p d hd
      · exact ho.assign y p d hd
    refine ⟨{ s3 with cur := { s3.cur with node := n, cond := k } }, ?_, ?_, ?_, ?_, ?_, ?_⟩
    · simp only [Dfa.mergeStates, h1, g1, k1]
    · refine ⟨k2.grow.reach, htrk ▸ hok.trk, ⟨?_, ?_, ?_, k3⟩,
        fun y b m hv => hnet.nodes m (hok.vars y b m hv), fun m he => hnet.nodes m (hok.ext m he), ?_⟩
      · simp only [hcur, htrk]; exact h2
      · intro y p d hd
        simp only [hcur, htrk] at hd
        obtain ⟨loc, hl⟩ := hflow y p d hd
        exact ⟨loc, isAssign_mono hnet hl⟩
      · intro m hm
        exact k2.grow.net.nodes m (g3 m hm)
      · intro w hw
        simp only [hnba] at hw
        obtain ⟨⟨loc, e1⟩, e2⟩ := hok.nba w hw
        exact ⟨⟨loc, isAssign_mono hnet e1⟩, e2⟩
    · exact le_frame hnet htrk hnba (.of_eq (by
        show s3.queue = _
        rw [k2q, g2q]))
    · simp only [hcur, ← heq, Bool.or_self]
    · exact (g2.trans k2).new
    · intro T U hT hU
      have hU' : other.reach = true ↔ ∃ tr, U tr := hU.reach
      refine ⟨?_, ?_⟩
      · simp only [hcur]
        constructor
        · intro h
          obtain ⟨tr, ht⟩ := hT.reach.1 h
          exact ⟨tr, .inl ht⟩
        · rintro ⟨tr, ht | ht⟩
          · exact hT.reach.2 ⟨tr, ht⟩
          · rw [heq]; exact hU'.2 ⟨tr, ht⟩
      · intro hr y p loc
        simp only [hcur] at hr
        have d1 := hT.defs hr y p loc
        have d2 := hU.defs (by show other.reach = true; rw [← heq]; exact hr) y p loc
        simp only [hcur, htrk]
        constructor
        · rintro ⟨d, hd, hl⟩
          obtain ⟨l0, hl0⟩ := hflow y p d hd
          have := isAssign_unique (isAssign_mono hnet hl0) hl
          subst this
          rcases (h3 y p d).1 hd with hd | hd
          · obtain ⟨tr, ht, hla⟩ := d1.1 ⟨d, hd, hl0⟩
            exact ⟨tr, .inl ht, hla⟩
          · obtain ⟨tr, ht, hla⟩ := d2.1 ⟨d, hd, hl0⟩
            exact ⟨tr, .inr ht, hla⟩
        · rintro ⟨tr, ht | ht, hla⟩
          · obtain ⟨d, hd, hl⟩ := d1.2 ⟨tr, ht, hla⟩
            exact ⟨d, (h3 y p d).2 (.inl hd), isAssign_mono hnet hl⟩
          · obtain ⟨d, hd, hl⟩ := d2.2 ⟨tr, ht, hla⟩
            exact ⟨d, (h3 y p d).2 (.inr hd), isAssign_mono hnet hl⟩
  · rw [if_neg heq]
    cases hr : s.cur.reach with
    | false =>
      have hor : other.reach = true := by
        cases h : other.reach with
        | false => rw [hr, h] at heq; exact absurd rfl heq
        | true => rfl
      simp only [Bool.not_false, if_true, Bool.false_or]
      refine ⟨_, rfl, ⟨hok.net, hok.trk, ho, hok.vars, hok.ext, hok.nba⟩,
        ⟨NetLe.refl _, TrkLe.refl _, ⟨[], by simp⟩, ⟨[], by simp, rfl⟩⟩, rfl,
        fun n h1 h2 => absurd h1 h2, ?_⟩
      intro T U hT hU
      have : (fun tr => T tr ∨ U tr) = U := by
        funext tr
        simp only [hdead hT hr tr, false_or]
      rw [this]; exact hU
    | true =>
      have hor : other.reach = false := by
        cases h : other.reach with
        | true => rw [hr, h] at heq; exact absurd rfl heq
        | false => rfl
      simp only [Bool.not_true, Bool.false_eq_true, if_false, Bool.true_or]
      refine ⟨s, rfl, hok, Le.refl s, hr, fun n h1 h2 => absurd h1 h2, ?_⟩
      intro T U hT hU
      have : (fun tr => T tr ∨ U tr) = T := by
        funext tr
        simp only [hdead hU hor tr, or_false]
      rw [this]; exact hT

/-! ### Statements -/

/-- Paths followed by those of a statement. -/
def appS (T : List Wr → Prop) (st : Stmt) (tr : List Wr) : Prop :=
  ∃ u v, T u ∧ Runs st v ∧ tr = u ++ v

theorem exec_ok {c : DfaCtx} {W : List Wr} (hW : Plain W) (st : Stmt) : ∀ s : Dfa, Ok c W s →
    (∀ w ∈ allWrites st, w ∈ W) →
    ∃ s', s.exec c st = .ok s' ∧ Ok c W s' ∧ Le (nbaWrites s.cur.reach st) s s' ∧
      s'.cur.reach = (s.cur.reach && live st) ∧ ∀ T, Sem s T → Sem s' (appS T st) := by
  have hsame : ∀ {st : Stmt} {T : List Wr → Prop} {ws : List Wr} , (∀ v, Runs st v ↔ v = ws) →
      appS T st = app T ws := by
    intro st T ws h
    funext tr
    simp only [appS, app, h, eq_iff_iff]
    constructor
    · rintro ⟨u, v, h1, rfl, h2⟩; exact ⟨u, h1, h2⟩
    · rintro ⟨u, h1, h2⟩; exact ⟨u, ws, h1, rfl, h2⟩
  induction st with
  | skip =>
    intro s hok _
    refine ⟨s, rfl, hok, Le.refl s, by simp [live], fun T h => ?_⟩
    rw [hsame (ws := []) (fun v => ⟨fun h => by cases h; rfl, fun h => h ▸ .skip⟩), app_nil]; exact h
  | reads rs =>
    intro s hok _
    obtain ⟨s', h1, h2⟩ := readRefs_ok hW true rs hok
    refine ⟨s', h1, h2.ok hok, h2.le, by simp [live, h2.cur], fun T h => ?_⟩
    rw [hsame (ws := []) (fun v => ⟨fun h => by cases h; rfl, fun h => h ▸ .reads rs⟩), app_nil]
    exact sem_read h2 hok h
  | assign loc b a =>
    intro s hok hw
    obtain ⟨s', h1, h2, h3, h4, h5, _⟩ := assign_ok hW hok loc b a hw
    refine ⟨s', h1, h2, h3, by simp [live, h4], fun T h => ?_⟩
    rw [hsame (ws := asgWrites loc b a) (fun v => ⟨fun h => by cases h; rfl, fun h => h ▸ .assign ..⟩)]
    exact h5 T h
  | branch k loc =>
    intro s hok _
    obtain ⟨s', n, h1, h2, h3, _⟩ := branch_ok hok k loc
    refine ⟨s', h1, h3, h2.le, by simp [live, h2.flow], fun T h => ?_⟩
    rw [hsame (ws := []) (fun v => ⟨fun h => by cases h; rfl, fun h => h ▸ .branch ..⟩), app_nil]
    exact h2.sem hok h
  | dead =>
    intro s hok _
    refine ⟨_, rfl, ⟨hok.net, hok.trk, ⟨drvOk_empty _ _, fun y p d h => absurd h dAt_empty, by simp,
      by simp⟩, hok.vars, hok.ext, hok.nba⟩,
      ⟨NetLe.refl _, TrkLe.refl _, ⟨[], by simp⟩, ⟨[], by simp, rfl⟩⟩, by simp [live], fun T h => ?_⟩
    refine ⟨?_, fun h => by cases h⟩
    constructor
    · intro h; cases h
    · rintro ⟨_, _, _, _, h, _⟩; cases h
  | seq a b iha ihb =>
    intro s hok hw
    obtain ⟨s1, h1, h2, h3, h4, h5⟩ := iha s hok fun w h => hw w (List.mem_append_left _ h)
    obtain ⟨s2, g1, g2, g3, g4, g5⟩ := ihb s1 h2 fun w h => hw w (List.mem_append_right _ h)
    refine ⟨s2, by simp only [Dfa.exec, h1, g1], g2, ?_, by rw [g4, h4, live, Bool.and_assoc],
      fun T h => ?_⟩
    · rw [h4] at g3; exact h3.trans g3 h2
    · have : appS T (.seq a b) = appS (appS T a) b := by
        funext tr
        simp only [appS, eq_iff_iff]
        constructor
        · rintro ⟨u, _, hu, hr, rfl⟩
          cases hr with
          | seq r1 r2 => exact ⟨_, _, ⟨u, _, hu, r1, rfl⟩, r2, by simp⟩
        · rintro ⟨_, v, ⟨u, v', hu, r1, rfl⟩, r2, rfl⟩
          exact ⟨u, v' ++ v, hu, .seq r1 r2, by simp⟩
      rw [this]
      exact g5 _ (h5 T h)
  | choose f a b iha ihb =>
    intro s hok hw
    obtain ⟨s1, h1, h2, h3, h4, h5⟩ := iha s hok fun w h => hw w (List.mem_append_left _ h)
    -- the second branch starts from the saved state
    have hokS : Ok c W ({ s1 with cur := s.cur } : Dfa) :=
      ⟨h2.net, h2.trk, flowOk_mono h3.trk h3.net hok.flow, h2.vars, h2.ext, h2.nba⟩
    obtain ⟨s2, g1, g2, g3, g4, g5⟩ := ihb _ hokS fun w h => hw w (List.mem_append_right _ h)
    have hle12 : Le (nbaWrites s.cur.reach b) s1 s2 := ⟨g3.net, g3.trk, g3.queue, g3.nba⟩
    have hflow1 : FlowOk W s2.trk s2.net s1.cur := flowOk_mono hle12.trk hle12.net h2.flow
    have hsemS : ∀ T, Sem s T → Sem ({ s1 with cur := s.cur } : Dfa) T := fun T h =>
      sem_mono (s' := { s1 with cur := s.cur }) hok.flow h3.trk h3.net rfl rfl h
    have hsem1 : ∀ T, Sem s T → Sem ({ s2 with cur := s1.cur } : Dfa) (appS T a) := fun T h =>
      sem_mono (s' := { s2 with cur := s1.cur }) h2.flow hle12.trk hle12.net rfl rfl (h5 T h)
    have hsem2 : ∀ T, Sem s T → Sem s2 (appS T b) := fun T h => g5 T (hsemS T h)
    have hset : ∀ T, appS T (.choose f a b) = fun tr => appS T a tr ∨ appS T b tr := by
      intro T
      funext tr
      simp only [appS, eq_iff_iff]
      constructor
      · rintro ⟨u, v, hu, hr, rfl⟩
        cases hr with
        | first r => exact .inl ⟨u, v, hu, r, rfl⟩
        | second r => exact .inr ⟨u, v, hu, r, rfl⟩
      · rintro (⟨u, v, hu, hr, rfl⟩ | ⟨u, v, hu, hr, rfl⟩)
        · exact ⟨u, v, hu, .first hr, rfl⟩
        · exact ⟨u, v, hu, .second hr, rfl⟩
    have hle : Le (nbaWrites s.cur.reach (.choose f a b)) s s2 := h3.trans hle12 h2
    simp only [Dfa.exec, h1, g1]
    cases f with
    | true =>
      have hok2 : Ok c W ({ s2 with cur := s1.cur } : Dfa) :=
        ⟨g2.net, g2.trk, hflow1, g2.vars, g2.ext, g2.nba⟩
      obtain ⟨s3, k1, k2, k3, k4, _, k5⟩ := joinState_ok hW hok2 (other := s2.cur) g2.flow
      refine ⟨s3, by simp only [if_true, k1], k2, ?_, ?_, fun T h => ?_⟩
      · have := hle.trans (s3 := s3) ⟨k3.net, k3.trk, k3.queue, k3.nba⟩ g2
        simpa using this
      · rw [k4, live]
        simp only [h4, g4]
        cases s.cur.reach <;> simp
      · rw [hset]
        exact k5 _ _ (hsem1 T h) (hsem2 T h)
    | false =>
      obtain ⟨s3, k1, k2, k3, k4, _, k5⟩ := joinState_ok hW g2 (other := s1.cur) hflow1
      refine ⟨s3, by simp only [Bool.false_eq_true, if_false, k1], k2, ?_, ?_, fun T h => ?_⟩
      · have := hle.trans k3 g2
        simpa using this
      · rw [k4, live]
        simp only [h4, g4]
        cases s.cur.reach <;> simp [Bool.or_comm]
      · rw [hset]
        have := k5 _ _ (hsem2 T h) (hsem1 T h)
        have he : (fun tr => appS T a tr ∨ appS T b tr) = fun tr => appS T b tr ∨ appS T a tr := by
          funext tr; exact propext or_comm
        rw [he]; exact this

end Verif.Proofs

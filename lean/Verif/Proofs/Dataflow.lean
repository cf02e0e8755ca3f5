import Verif.Proofs.DataflowBase

/-! The invariant of the data flow analysis and the correctness of its state against the writes on
each control path. -/
namespace Verif.Proofs
open Verif.Spec Verif.Model Verif.Props

/-! ### Invariants -/

/-- Well-formed analysis state. -/
structure FlowOk (W : List Wr) (t : Tracker) (net : NetGraph) (f : Flow) : Prop where
  drv : DrvOk W t f.drv
  assign : ∀ y p d, DAt t f.drv y p d → ∃ loc, IsAssign net d loc
  node : ∀ n, f.node = some n → n ∈ net.g.nodes
  cond : ∀ n, f.cond = some n → n ∈ net.g.nodes

/-- Well-formed analysis. -/
structure Ok (c : DfaCtx) (W : List Wr) (s : Dfa) : Prop where
  net : Reachable s.net
  trk : TrkOk s.trk
  flow : FlowOk W s.trk s.net s.cur
  vars : ∀ y b n, c.vars.lookup y b = some n → n ∈ s.net.g.nodes
  ext : ∀ n, c.ext = some n → n ∈ s.net.g.nodes
  nba : ∀ w ∈ s.nba, (∃ loc, IsAssign s.net w.node loc) ∧
    ∃ v ∈ W, v.sym = w.sym ∧ v.bounds = w.bounds

/-- The write a pending entry stands for. -/
def nbaWr (net : NetGraph) (w : PendL) : Option Wr :=
  match w.node with
  | none => none
  | some n =>
    match net.data n with
    | .assignment loc => some ⟨w.sym, w.bounds, loc, false⟩
    | _ => none

/-- `s'` has the pending reads of `s` and further plain ones, for nodes of the graph. -/
def Queued (s s' : Dfa) : Prop :=
  ∃ q, s'.queue = s.queue ++ q ∧ ∀ x ∈ q, x.kind = .none ∧ ∀ n, x.node = some n → n ∈ s'.net.g.nodes

theorem Queued.of_eq {s s' : Dfa} (h : s'.queue = s.queue) : Queued s s' := ⟨[], by simp [h], by simp⟩

theorem Queued.trans {a b d : Dfa} (h : Queued a b) (k : Queued b d) (hn : NetLe b.net d.net) :
    Queued a d := by
  obtain ⟨q1, h1, h2⟩ := h
  obtain ⟨q2, k1, k2⟩ := k
  refine ⟨q1 ++ q2, by simp [k1, h1], fun x hx => ?_⟩
  rcases List.mem_append.1 hx with hx | hx
  · exact ⟨(h2 x hx).1, fun n hxn => hn.nodes n ((h2 x hx).2 n hxn)⟩
  · exact k2 x hx

/-- `s'` extends `s`; the non-blocking writes added are `ws`. -/
structure Le (ws : List Wr) (s s' : Dfa) : Prop where
  net : NetLe s.net s'.net
  trk : TrkLe s.trk s'.trk
  queue : Queued s s'
  nba : ∃ l, s'.nba = s.nba ++ l ∧ l.map (nbaWr s'.net) = ws.map some

/-- The state agrees with the set `T` of paths leading to it. -/
structure Sem (s : Dfa) (T : List Wr → Prop) : Prop where
  reach : s.cur.reach = true ↔ ∃ tr, T tr
  defs : s.cur.reach = true → ∀ y p loc,
    (∃ d, DAt s.trk s.cur.drv y p d ∧ IsAssign s.net d loc) ↔ ∃ tr, T tr ∧ LastAt true tr y p loc

/-- Paths followed by fixed writes. -/
def app (T : List Wr → Prop) (ws : List Wr) (tr : List Wr) : Prop := ∃ u, T u ∧ tr = u ++ ws

theorem app_nil (T : List Wr → Prop) : app T [] = T := by
  funext tr; simp [app]

theorem app_app (T : List Wr → Prop) (u v : List Wr) : app (app T u) v = app T (u ++ v) := by
  funext tr
  simp only [app, eq_iff_iff]
  constructor
  · rintro ⟨_, ⟨x, hx, rfl⟩, rfl⟩; exact ⟨x, hx, by simp⟩
  · rintro ⟨x, hx, rfl⟩; exact ⟨_, ⟨x, hx, rfl⟩, by simp⟩

theorem isAssign_mono {net net' : NetGraph} (h : NetLe net net') {d : Option Nat} {loc : TextLoc}
    (hd : IsAssign net d loc) : IsAssign net' d loc := by
  obtain ⟨n, hn, rfl, h2⟩ := hd
  exact ⟨n, h.nodes n hn, rfl, by rw [h.data n hn, h2]⟩

theorem isAssign_unique {net : NetGraph} {d : Option Nat} {a b : TextLoc} (h1 : IsAssign net d a)
    (h2 : IsAssign net d b) : a = b := by
  obtain ⟨n, _, rfl, h3⟩ := h1
  obtain ⟨m, _, h4, h5⟩ := h2
  cases h4
  rw [h3] at h5
  cases h5
  rfl

theorem flowOk_mono {W : List Wr} {t t' : Tracker} {net net' : NetGraph} (ht : TrkLe t t')
    (hn : NetLe net net') {f : Flow} (h : FlowOk W t net f) : FlowOk W t' net' f :=
  ⟨drvOk_mono ht h.drv,
    fun y p d hd => by
      obtain ⟨loc, hl⟩ := h.assign y p d ((dAt_mono ht h.drv.len).1 hd)
      exact ⟨loc, isAssign_mono hn hl⟩,
    fun n h1 => hn.nodes n (h.node n h1), fun n h1 => hn.nodes n (h.cond n h1)⟩

/-- The meaning of a state does not change when the rest grows. -/
theorem sem_mono {W : List Wr} {s s' : Dfa} {T : List Wr → Prop}
    (hf : FlowOk W s.trk s.net s.cur) (ht : TrkLe s.trk s'.trk) (hn : NetLe s.net s'.net)
    (hd : s'.cur.drv = s.cur.drv) (hr : s'.cur.reach = s.cur.reach) (h : Sem s T) : Sem s' T := by
  refine ⟨by rw [hr]; exact h.reach, fun hr' y p loc => ?_⟩
  rw [← h.defs (hr ▸ hr'), hd]
  constructor
  · rintro ⟨d, h1, h2⟩
    rw [dAt_mono ht hf.drv.len] at h1
    obtain ⟨l, hl⟩ := hf.assign y p d h1
    have := isAssign_unique (isAssign_mono hn hl) h2
    subst this
    exact ⟨d, h1, hl⟩
  · rintro ⟨d, h1, h2⟩
    exact ⟨d, (dAt_mono ht hf.drv.len).2 h1, isAssign_mono hn h2⟩

theorem nbaWr_mono {net net' : NetGraph} (h : NetLe net net') {w : PendL}
    (hw : ∃ loc, IsAssign net w.node loc) : nbaWr net' w = nbaWr net w := by
  obtain ⟨loc, n, hn, h1, h2⟩ := hw
  unfold nbaWr
  rw [h1]
  simp only [h.data n hn]

theorem Le.refl (s : Dfa) : Le [] s s :=
  ⟨NetLe.refl _, TrkLe.refl _, .of_eq rfl, ⟨[], by simp, rfl⟩⟩

theorem Le.trans {c : DfaCtx} {W : List Wr} {u v : List Wr} {s1 s2 s3 : Dfa} (h : Le u s1 s2)
    (k : Le v s2 s3) (hok : Ok c W s2) : Le (u ++ v) s1 s3 := by
  obtain ⟨l1, h3, h4⟩ := h.nba
  obtain ⟨l2, h5, h6⟩ := k.nba
  refine ⟨h.net.trans k.net, h.trk.trans k.trk, h.queue.trans k.queue k.net,
    ⟨l1 ++ l2, by simp [h5, h3], ?_⟩⟩
  rw [List.map_append, h6, List.map_append, ← h4]
  congr 1
  refine List.map_congr_left fun w hw => nbaWr_mono k.net ?_
  exact (hok.nba w (by rw [h3]; exact List.mem_append_right _ hw)).1

/-- Changes of the graph and the queue only. -/
theorem ok_frame {c : DfaCtx} {W : List Wr} {s s' : Dfa} (h : Ok c W s) (hr : Reachable s'.net)
    (hn : NetLe s.net s'.net) (ht : s'.trk = s.trk) (hb : s'.nba = s.nba) (hc : s'.cur = s.cur) :
    Ok c W s' := by
  refine ⟨hr, ht ▸ h.trk, ?_, fun y b n hv => hn.nodes n (h.vars y b n hv),
    fun n he => hn.nodes n (h.ext n he), ?_⟩
  · rw [ht, hc]; exact flowOk_mono (TrkLe.refl _) hn h.flow
  · intro w hw
    rw [hb] at hw
    obtain ⟨⟨loc, h1⟩, h2⟩ := h.nba w hw
    exact ⟨⟨loc, isAssign_mono hn h1⟩, h2⟩

theorem le_frame {s s' : Dfa} (hn : NetLe s.net s'.net) (ht : s'.trk = s.trk) (hb : s'.nba = s.nba)
    (hq : Queued s s') : Le [] s s' :=
  ⟨hn, ht ▸ TrkLe.refl _, hq, ⟨[], by simp [hb], rfl⟩⟩

/-! ### Reads -/

/-- A change of the graph (edges only) and the queue. -/
structure ReadLe (s s' : Dfa) : Prop where
  reach : Reachable s'.net
  net : NetLe s.net s'.net
  nodes : s'.net.g.nodes = s.net.g.nodes
  trk : s'.trk = s.trk
  nba : s'.nba = s.nba
  cur : s'.cur = s.cur
  queue : Queued s s'

theorem ReadLe.refl {s : Dfa} (h : Reachable s.net) : ReadLe s s :=
  ⟨h, NetLe.refl _, rfl, rfl, rfl, rfl, .of_eq rfl⟩

theorem ReadLe.trans {a b d : Dfa} (h : ReadLe a b) (k : ReadLe b d) : ReadLe a d := by
  exact ⟨k.reach, h.net.trans k.net, k.nodes.trans h.nodes, k.trk.trans h.trk, k.nba.trans h.nba,
    k.cur.trans h.cur, h.queue.trans k.queue k.net⟩

theorem ReadLe.ok {c : DfaCtx} {W : List Wr} {s s' : Dfa} (h : ReadLe s s') (hok : Ok c W s) :
    Ok c W s' := ok_frame hok h.reach h.net h.trk h.nba h.cur

theorem ReadLe.le {s s' : Dfa} (h : ReadLe s s') : Le [] s s' :=
  le_frame h.net h.trk h.nba h.queue

theorem dfa_addDeps {s : Dfa} (hr : Reachable s.net) {ds : List Dep}
    (hn : ∀ d ∈ ds, d.src ∈ s.net.g.nodes ∧ d.tgt ∈ s.net.g.nodes) :
    ∃ s', s.addDeps ds = .ok s' ∧ ReadLe s s' ∧ s'.queue = s.queue ∧
      ∀ a k, Joined s'.net a k ↔ Joined s.net a k ∨ ∃ d ∈ ds, d.src = a ∧ d.tgt = k := by
  obtain ⟨net', h1, h2, h3, h4, _, h5⟩ := deps_le hr hn
  exact ⟨{ s with net := net' }, by simp [Dfa.addDeps, h1],
    ⟨h2, h3, h4, rfl, rfl, rfl, .of_eq rfl⟩, rfl, h5⟩

/-- A variable node found for a variable behind a modport port. -/
def Behind (c : DfaCtx) (r : Ref) (a : Nat) : Prop :=
  ∃ v ∈ c.D.iface r.sym r.lsp, c.vars.lookup v.1 v.2 = some a

theorem addRvalue_ok {c : DfaCtx} {W : List Wr} {s : Dfa} (hok : Ok c W s) (r : Ref) (b : BitRange)
    {node : Option Nat} (hn : ∀ n, node = some n → n ∈ s.net.g.nodes) :
    ∃ s', s.addRvalue c r b node = .ok s' ∧ ReadLe s s' ∧
      (c.D.kind r.sym ≠ .modportPort ∨ node = none →
        s'.net = s.net ∧ s'.queue = s.queue ++ [⟨r.sym, b, node, .none⟩]) ∧
      ∀ n, c.D.kind r.sym = .modportPort → node = some n → s'.queue = s.queue ∧
        ∀ a k, Joined s'.net a k ↔ Joined s.net a k ∨ (Behind c r a ∧ k = n) := by
  unfold Dfa.addRvalue
  split
  · rename_i n hk
    obtain ⟨s', h1, h2, h3, h4⟩ := dfa_addDeps hok.net (ds := modportDeps c r b n) (by
      intro d hd
      unfold modportDeps at hd
      obtain ⟨v, _, hv⟩ := List.mem_filterMap.1 hd
      obtain ⟨vn, hvn, rfl⟩ := Option.map_eq_some_iff.1 hv
      exact ⟨hok.vars _ _ _ hvn, hn n rfl⟩)
    refine ⟨s', h1, h2, fun h => absurd hk (h.resolve_right (by simp)), ?_⟩
    intro m _ hm
    cases hm
    refine ⟨h3, fun a k => ?_⟩
    rw [h4]
    unfold modportDeps Behind
    constructor
    · rintro (h | ⟨d, hd, rfl, rfl⟩)
      · exact .inl h
      · obtain ⟨v, hv1, hv⟩ := List.mem_filterMap.1 hd
        obtain ⟨vn, hvn, rfl⟩ := Option.map_eq_some_iff.1 hv
        exact .inr ⟨⟨v, hv1, hvn⟩, rfl⟩
    · rintro (h | ⟨⟨v, hv, hl⟩, rfl⟩)
      · exact .inl h
      · exact .inr ⟨_, List.mem_filterMap.2 ⟨v, hv, Option.map_eq_some_iff.2 ⟨a, hl, rfl⟩⟩, rfl, rfl⟩
  · rename_i hno
    refine ⟨_, rfl, ⟨hok.net, NetLe.refl _, rfl, rfl, rfl, rfl, ⟨_, rfl, ?_⟩⟩, fun _ => ⟨rfl, rfl⟩, ?_⟩
    · intro x hx
      rw [List.mem_singleton.1 hx]
      exact ⟨rfl, hn⟩
    intro m hm hm'
    exact absurd hm' (by rintro rfl; exact hno m hm rfl)

theorem addRvalues_ok {c : DfaCtx} {W : List Wr} (r : Ref) {n : Nat} (es : List (Ivl Unit)) :
    ∀ s : Dfa, Ok c W s → n ∈ s.net.g.nodes →
    ∃ s', s.addRvalues c r (some n) es = .ok s' ∧ ReadLe s s' ∧
      (c.D.kind r.sym ≠ .modportPort → s'.net = s.net ∧
        s'.queue = s.queue ++ es.map fun e => ⟨r.sym, ⟨e.lo, e.hi⟩, some n, .none⟩) ∧
      (c.D.kind r.sym = .modportPort → s'.queue = s.queue ∧
        ∀ a k, Joined s'.net a k ↔ Joined s.net a k ∨ (es ≠ [] ∧ Behind c r a ∧ k = n)) := by
  induction es with
  | nil => intro s hok _; exact ⟨s, rfl, .refl hok.net, fun _ => ⟨rfl, by simp⟩, fun _ => ⟨rfl, by simp⟩⟩
  | cons e es ih =>
    intro s hok hn
    obtain ⟨s1, h1, h2, h3, h4⟩ := addRvalue_ok hok r ⟨e.lo, e.hi⟩ (node := some n)
      (fun k hk => by cases hk; exact hn)
    obtain ⟨s2, k1, k2, k3, k4⟩ := ih s1 (h2.ok hok) (h2.nodes ▸ hn)
    refine ⟨s2, by simp only [Dfa.addRvalues, h1, k1], h2.trans k2, fun hk => ?_, fun hk => ?_⟩
    rotate_left
    · obtain ⟨a1, a2⟩ := h4 n hk rfl
      obtain ⟨b1, b2⟩ := k4 hk
      refine ⟨b1.trans a1, fun a k => ?_⟩
      rw [b2, a2]
      grind
    obtain ⟨a1, a2⟩ := h3 (.inl hk)
    obtain ⟨b1, b2⟩ := k3 hk
    exact ⟨b1.trans a1, by rw [b2, a2]; simp⟩

theorem containsRange_iff (a b : BitRange) :
    a.containsRange b = true ↔ a.lower ≤ b.lower ∧ b.upper ≤ a.upper := by
  simp [BitRange.containsRange]

/-- The interval is inside the range or contains it. -/
def Clean (b : BitRange) (e : Ivl Nat) : Prop :=
  (e.lo ≤ b.lower ∧ b.upper ≤ e.hi) ∨ (b.lower ≤ e.lo ∧ e.hi ≤ b.upper)

theorem readLoop_spec {m : DMap} (hI : DInv m) (b : BitRange) (n : Nat) (ref : SymRef)
    (es : List (Ivl Nat)) (hes : ∀ e ∈ es, e ∈ m.ivls ∧ e.lo ≤ b.upper ∧ b.lower ≤ e.hi) :
    ∃ ds fin, readLoop m b n ref es = .ok (ds, fin) ∧
      (∀ d ∈ ds, d.tgt = n ∧ d.sym = some ref ∧ d.bounds = b ∧ ∃ e ∈ es, Clean b e ∧
        ∃ l, m.lists.get e.val = some l ∧ HasN l (some d.src)) ∧
      (es.Pairwise (fun x y => x.hi < y.lo) → ∀ e ∈ es, Clean b e → ∀ l k,
        m.lists.get e.val = some l → HasN l (some k) →
        (⟨k, n, some ref, b, .none⟩ : Dep) ∈ ds) ∧
      (fin = true → ∃ e ∈ es, e.lo ≤ b.lower ∧ b.upper ≤ e.hi) := by
  have hbl : b.lower ≤ b.upper := by simp only [BitRange.lower, BitRange.upper]; omega
  induction es with
  | nil => exact ⟨[], false, rfl, by simp, by simp, by simp⟩
  | cons e es ih =>
    obtain ⟨he, hh1, hh2⟩ := hes e List.mem_cons_self
    obtain ⟨l, hl⟩ := hI.live e he
    have hne := hI.ok.1 e he
    have hlow : (BitRange.mk e.lo e.hi).lower = e.lo := by simp [BitRange.lower]; omega
    have hup : (BitRange.mk e.lo e.hi).upper = e.hi := by simp [BitRange.upper]; omega
    by_cases hc : (BitRange.mk e.lo e.hi).containsRange b = true
    · refine ⟨driverDeps l n ref b, true, ?_, ?_, ?_, ?_⟩
      · simp only [readLoop, getList_ok hl, hc, if_true]
      · rw [containsRange_iff, hlow, hup] at hc
        intro d hd
        obtain ⟨x, hx, h1, h2, h3, h4, _⟩ := mem_driverDeps.1 hd
        exact ⟨h2, h3, h4, e, List.mem_cons_self, .inl hc, l, hl, x, hx, h1⟩
      · rw [containsRange_iff, hlow, hup] at hc
        intro hpw e' he' hcl l' k hl' hk
        rcases List.mem_cons.1 he' with rfl | he'
        · rw [hl] at hl'; cases hl'
          obtain ⟨x, hx, hxk⟩ := hk
          exact mem_driverDeps.2 ⟨x, hx, hxk, rfl, rfl, rfl, rfl⟩
        · have h1 := (List.pairwise_cons.1 hpw).1 e' he'
          have h2 := hes e' (List.mem_cons_of_mem _ he')
          omega
      · rw [containsRange_iff, hlow, hup] at hc
        exact fun _ => ⟨e, List.mem_cons_self, hc⟩
    · obtain ⟨ds, fin, h1, h2, h3, h4⟩ := ih fun x hx => hes x (List.mem_cons_of_mem _ hx)
      by_cases hb : b.containsRange ⟨e.lo, e.hi⟩ = true
      · refine ⟨driverDeps l n ref b ++ ds, fin, ?_, ?_, ?_, ?_⟩
        · simp only [readLoop, getList_ok hl, hc, if_false, Bool.false_eq_true, h1, hb, if_true]
        · rw [containsRange_iff, hlow, hup] at hb
          intro d hd
          rcases List.mem_append.1 hd with hd | hd
          · obtain ⟨x, hx, g1, g2, g3, g4, _⟩ := mem_driverDeps.1 hd
            exact ⟨g2, g3, g4, e, List.mem_cons_self, .inr hb, l, hl, x, hx, g1⟩
          · obtain ⟨g1, g2, g3, e', he', g4⟩ := h2 d hd
            exact ⟨g1, g2, g3, e', List.mem_cons_of_mem _ he', g4⟩
        · intro hpw e' he' hcl l' k hl' hk
          rcases List.mem_cons.1 he' with rfl | he'
          · rw [hl] at hl'; cases hl'
            obtain ⟨x, hx, hxk⟩ := hk
            exact List.mem_append_left _ (mem_driverDeps.2 ⟨x, hx, hxk, rfl, rfl, rfl, rfl⟩)
          · exact List.mem_append_right _ (h3 (List.pairwise_cons.1 hpw).2 e' he' hcl l' k hl' hk)
        · intro hf
          obtain ⟨e', he', g⟩ := h4 hf
          exact ⟨e', List.mem_cons_of_mem _ he', g⟩
      · refine ⟨ds, fin, ?_, ?_, ?_, ?_⟩
        · simp only [readLoop, getList_ok hl, hc, if_false, Bool.false_eq_true, h1, hb]
        · intro d hd
          obtain ⟨g1, g2, g3, e', he', g4⟩ := h2 d hd
          exact ⟨g1, g2, g3, e', List.mem_cons_of_mem _ he', g4⟩
        · intro hpw e' he' hcl l' k hl' hk
          rcases List.mem_cons.1 he' with rfl | he'
          · rw [containsRange_iff, hlow, hup] at hb hc
            rcases hcl with h | h
            · exact absurd h hc
            · exact absurd h hb
          · exact h3 (List.pairwise_cons.1 hpw).2 e' he' hcl l' k hl' hk
        · intro hf
          obtain ⟨e', he', g⟩ := h4 hf
          exact ⟨e', List.mem_cons_of_mem _ he', g⟩

/-- What a read does, in the order of its cases. -/
theorem handleRvalue_ok {c : DfaCtx} {W : List Wr} {s : Dfa} (hok : Ok c W s) (r : Ref) :
    ∃ s', s.handleRvalue c r = .ok s' ∧ ReadLe s s' := by
  have hext := hok.ext
  have hno : ∀ n, s.cur.node.or c.ext = some n → n ∈ s.net.g.nodes := by
    intro n h
    cases hc : s.cur.node with
    | none => rw [hc] at h; exact hext n h
    | some k => rw [hc] at h; cases h; exact hok.flow.node _ hc
  unfold Dfa.handleRvalue
  cases hg : (s.trk.getSlot r.sym).bind (fun i => s.cur.drv[i]?) with
  | none =>
    obtain ⟨s', h1, h2, _⟩ := addRvalue_ok hok r r.bounds hno
    exact ⟨s', h1, h2⟩
  | some m =>
    simp only
    obtain ⟨i, hi, hm⟩ := Option.bind_eq_some_iff.1 hg
    have his := getSlot_mem hi
    obtain ⟨hI, _⟩ := hok.flow.drv.maps _ i m his hm
    cases hn : s.cur.node with
    | none =>
      obtain ⟨s', h1, h2, _⟩ := addRvalue_ok hok r r.bounds (node := c.ext) hext
      exact ⟨s', h1, h2⟩
    | some n =>
      simp only
      have hnn := hok.flow.node n hn
      obtain ⟨ds, fin, h1, h2, _, _⟩ := readLoop_spec hI r.bounds n (c.D.ref r.sym)
        (imFind m.ivls r.bounds.lower r.bounds.upper) (fun e he => by
          obtain ⟨g1, g2⟩ := List.mem_filter.1 he
          simp [Ivl.hits] at g2
          exact ⟨g1, g2⟩)
      obtain ⟨s1, k1, k2, _⟩ := dfa_addDeps hok.net (ds := ds) (by
        intro d hd
        obtain ⟨g1, _, _, e, he, _, l, hl, hh⟩ := h2 d hd
        have hem := (List.mem_filter.1 he).1
        obtain ⟨loc, n', hn', hs, _⟩ := hok.flow.assign r.sym e.lo (some d.src)
          ⟨i, m, his, hm, e, hem, Int.le_refl _, hI.ok.1 e hem, l, hl, hh⟩
        cases hs
        exact ⟨hn', g1 ▸ hnn⟩)
      rw [h1]
      simp only [k1]
      cases fin with
      | true => exact ⟨s1, rfl, k2⟩
      | false =>
        have hbl : r.bounds.lower ≤ r.bounds.upper := by
          simp only [BitRange.lower, BitRange.upper]; omega
        obtain ⟨rest, hd, _⟩ := difference_bounds
          (first := [(⟨r.bounds.lower, r.bounds.upper, ()⟩ : Ivl Unit)]) (second := m.ivls)
          ⟨by simpa using hbl, by simp⟩ hI.ok (fun e he => (hI.bnd e he).2)
        obtain ⟨s2, a1, a2, _⟩ := addRvalues_ok r rest s1 (k2.ok hok) (n := n) (k2.nodes ▸ hnn)
        refine ⟨s2, ?_, k2.trans a2⟩
        simp only [Bool.false_eq_true, if_false, hd, a1]

end Verif.Proofs

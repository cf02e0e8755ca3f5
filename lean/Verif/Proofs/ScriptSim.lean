import Verif.Proofs.ScriptMaps

/-! Helper lemmas for C93: the analysis of a block follows a list of operations that does not depend on
the rest of the netlist. -/
namespace Verif.Proofs
open Verif.Spec Verif.Model

/-! ### What dependencies leave alone -/

/-- Two states of the graph with the same nodes. -/
def SameNodes (a b : NetGraph) : Prop := b.g.nextNode = a.g.nextNode ∧ b.data = a.data

theorem SameNodes.trans {a b c : NetGraph} (h : SameNodes a b) (h' : SameNodes b c) : SameNodes a c :=
  ⟨h'.1.trans h.1, h'.2.trans h.2⟩

theorem addNewEdge_next (g : DGraph) (s t : Nat) : (g.addNewEdge s t).1.nextNode = g.nextNode := rfl

theorem addEdge_next (g : DGraph) (s t : Nat) : (g.addEdge s t).1.nextNode = g.nextNode := by
  unfold DGraph.addEdge
  split
  · rfl
  · rfl

theorem call_edge_same {net net' : NetGraph} {a b : Nat} (h : net.call (.addEdge a b) = some net') :
    SameNodes net net' := by
  simp only [NetGraph.call, NetOp.gop, DGraph.call] at h
  by_cases hc : a ∈ net.g.nodes ∧ b ∈ net.g.nodes
  · rw [if_pos hc] at h
    cases h
    exact ⟨addEdge_next _ _ _, rfl⟩
  · rw [if_neg hc] at h; cases h

theorem call_newEdge_same {net net' : NetGraph} {a b : Nat} (h : net.call (.addNewEdge a b) = some net') :
    SameNodes net net' := by
  simp only [NetGraph.call, NetOp.gop, DGraph.call] at h
  by_cases hc : a ∈ net.g.nodes ∧ b ∈ net.g.nodes
  · rw [if_pos hc] at h
    cases h
    exact ⟨addNewEdge_next _ _ _, rfl⟩
  · rw [if_neg hc] at h; cases h

theorem dep_same {net net' : NetGraph} {d : Dep} (h : net.addDependency d = some net') :
    SameNodes net net' := by
  unfold NetGraph.addDependency at h
  dsimp only at h
  cases h1 : net.call (.addEdge d.src d.tgt) with
  | none => rw [h1] at h; cases h
  | some n1 =>
    rw [h1] at h
    dsimp only at h
    have s1 := call_edge_same h1
    split at h
    · cases h; exact s1
    · cases h2 : n1.call (.addNewEdge d.src d.tgt) with
      | none => rw [h2] at h; cases h
      | some n2 =>
        rw [h2] at h
        cases h
        exact s1.trans (c := n2) (call_newEdge_same h2)

theorem deps_same {ds : List Dep} : ∀ {net net' : NetGraph}, net.addDependencies ds = some net' →
    SameNodes net net' := by
  induction ds with
  | nil => intro net net' h; cases h; exact ⟨rfl, rfl⟩
  | cons d ds ih =>
    intro net net' h
    simp only [NetGraph.addDependencies] at h
    cases h1 : net.addDependency d with
    | none => rw [h1] at h; cases h
    | some n => rw [h1] at h; exact (dep_same h1).trans (ih h)

/-! ### Corresponding states -/

/-- Corresponding `AnalysisState`s. -/
structure FlowR (env : List Nat) (f f' : Flow) : Prop where
  drv : Rw (MapR env) f.drv f'.drv
  node : ownNode env f.node = some f'.node
  cond : ownNode env f.cond = some f'.cond
  reach : f'.reach = f.reach

theorem FlowR.mono {env : List Nat} (xs : List Nat) {f f' : Flow} (h : FlowR env f f') :
    FlowR (env ++ xs) f f' :=
  ⟨h.drv.mono fun _ _ => MapR.mono xs, ownNode_mono h.node xs, ownNode_mono h.cond xs, h.reach⟩

/-- Corresponding pending non-blocking writes. -/
def PendLR (env : List Nat) (p p' : PendL) : Prop :=
  p'.sym = p.sym ∧ p'.bounds = p.bounds ∧ p'.lsp = p.lsp ∧ ownNode env p.node = some p'.node

/-- The builder while a block is analysed: the graph and the queue are those of the analysis. -/
def putDfa (B : Bld) (s : Dfa) : Bld := { B with net := s.net, queue := s.queue }

/-- The state `s` of the analysis corresponds to the state `P` with positions in place of nodes, the graph
and the queue apart; the block has made the `k` nodes `env`. -/
structure Pre (k : Nat) (env : List Nat) (B : Bld) (P s : Dfa) : Prop where
  nodup : env.Nodup
  len : env.length = k
  old : ∀ n ∈ env, n < s.net.g.nextNode
  trk : s.trk = P.trk
  cur : FlowR env P.cur s.cur
  nba : Rw (PendLR env) P.nba s.nba

/-- The analysis and the operations have come to the same. -/
def Post (B : Bld) (env : List Nat) (k : Nat) (P : Dfa) (s : Dfa) (p : Bld × List Nat) : Prop :=
  p.1 = putDfa B s ∧ (∃ xs, p.2 = env ++ xs) ∧ Pre k p.2 B P s

/-- From a state corresponding to `P` the function does what the operations do and comes to a state
corresponding to `P'`. -/
def Sim (D : Design) (k : Nat) (P : Dfa) (F : DfaCtx → Dfa → Except Fault Dfa) (as : List BAct) (k' : Nat) (P' : Dfa) :
    Prop :=
  ∀ B env s, Pre k env B P s → ExR (Post B env k' P') (F ⟨D, B.vars, none⟩ s) ((putDfa B s).acts D env as)

theorem acts_append (D : Design) (as bs : List BAct) : ∀ (s : Bld) (env : List Nat),
    s.acts D env (as ++ bs) =
      match s.acts D env as with
      | .error f => .error f
      | .ok p => p.1.acts D p.2 bs := by
  induction as with
  | nil => intro s env; rfl
  | cons a as ih =>
    intro s env
    simp only [List.cons_append, Bld.acts]
    cases s.act D env a with
    | error f => rfl
    | ok p => exact ih p.1 p.2

/-- One after the other. -/
theorem post_seq {D : Design} {B : Bld} {env : List Nat} {k' k'' : Nat} {P' P'' : Dfa} {s0 : Bld}
    {as bs : List BAct} {x : Except Fault Dfa} {G : Dfa → Except Fault Dfa}
    (h1 : ExR (Post B env k' P') x (s0.acts D env as))
    (h2 : ∀ env' s', (∃ xs, env' = env ++ xs) → Pre k' env' B P' s' →
      ExR (Post B env' k'' P'') (G s') ((putDfa B s').acts D env' bs)) :
    ExR (Post B env k'' P'') (match (generalizing := false) x with | .error f => .error f | .ok s' => G s')
      (s0.acts D env (as ++ bs)) := by
  rw [acts_append]
  cases x with
  | error f =>
    cases hy : s0.acts D env as with
    | error g => rw [hy] at h1; exact h1
    | ok p => rw [hy] at h1; exact h1.elim
  | ok s' =>
    cases hy : s0.acts D env as with
    | error g => rw [hy] at h1; exact h1.elim
    | ok p =>
      rw [hy] at h1
      obtain ⟨e1, ⟨xs, e2⟩, hp⟩ := h1
      dsimp only
      rw [e1]
      refine (h2 p.2 s' ⟨xs, e2⟩ hp).mono fun a q hq => ?_
      obtain ⟨e3, ⟨ys, e4⟩, hq⟩ := hq
      exact ⟨e3, ⟨xs ++ ys, by rw [e4, e2, List.append_assoc]⟩, hq⟩

theorem Sim.seq {D : Design} {k k' k'' : Nat} {P P' P'' : Dfa} {F G : DfaCtx → Dfa → Except Fault Dfa}
    {as bs : List BAct} (h1 : Sim D k P F as k' P') (h2 : Sim D k' P' G bs k'' P'') :
    Sim D k P (fun c s => match F c s with | .error f => .error f | .ok s' => G c s') (as ++ bs) k'' P'' :=
  fun B env s hp => post_seq (h1 B env s hp) fun env' s' _ hp' => h2 B env' s' hp'

/-- Nothing happens. -/
theorem post_same {k : Nat} {env : List Nat} {B : Bld} {P s : Dfa} (h : Pre k env B P s) :
    Post B env k P s (putDfa B s, env) := ⟨rfl, ⟨[], by simp⟩, h⟩

/-- An operation on the graph, the queue or the variable nodes; interface variables only behind modports; no new
registers. -/
def OwnAct (D : Design) : BAct → Prop
  | .drive .. | .hook .. | .extra .. | .reg .. | .node (.state ..) => False
  | .mread r _ _ => D.kind r.sym = .modportPort
  | _ => True

/-- All operations are such. -/
def OwnActs (D : Design) (as : List BAct) : Prop := ∀ a ∈ as, OwnAct D a

theorem OwnActs.nil {D : Design} : OwnActs D [] := fun _ h => by cases h

theorem OwnActs.cons {D : Design} {a : BAct} {as : List BAct} (h : OwnAct D a) (h' : OwnActs D as) :
    OwnActs D (a :: as) := by
  intro x hx
  rcases List.mem_cons.1 hx with rfl | hx
  · exact h
  · exact h' x hx

theorem OwnActs.append {D : Design} {as bs : List BAct} (h : OwnActs D as) (h' : OwnActs D bs) :
    OwnActs D (as ++ bs) := fun x hx => (List.mem_append.1 hx).elim (h x) (h' x)

theorem OwnActs.deps {D : Design} (ds : List Dep) : OwnActs D (ds.map .dep) := by
  intro x hx
  obtain ⟨d, _, rfl⟩ := List.mem_map.1 hx
  trivial

theorem OwnActs.one {D : Design} {a : BAct} (h : OwnAct D a) : OwnActs D [a] := .cons h .nil

/-! ### Elementary operations -/

/-- Corresponding dependencies. -/
def DepR (env : List Nat) (d d' : Dep) : Prop :=
  env[d.src]? = some d'.src ∧ env[d.tgt]? = some d'.tgt ∧ d'.sym = d.sym ∧ d'.bounds = d.bounds ∧
    d'.kind = d.kind

theorem Pre.net {k : Nat} {env : List Nat} {B : Bld} {P s : Dfa} (h : Pre k env B P s)
    {net' : NetGraph} (hn : SameNodes s.net net') : Pre k env B P { s with net := net' } :=
  ⟨h.nodup, h.len, fun n hm => by show n < net'.g.nextNode; rw [hn.1]; exact h.old n hm, h.trk,
    h.cur, h.nba⟩

theorem sim_deps {D : Design} {k : Nat} {P : Dfa} {B : Bld} {env : List Nat} {ds0 : List Dep} :
    ∀ {s : Dfa} {ds : List Dep}, Pre k env B P s → Rw (DepR env) ds0 ds →
    ExR (Post B env k P) (s.addDeps ds) ((putDfa B s).acts D env (ds0.map .dep)) := by
  induction ds0 with
  | nil =>
    intro s ds hp hr
    have : ds = [] := List.length_eq_zero_iff.1 hr.1.symm
    subst this
    exact post_same hp
  | cons d ds0 ih =>
    intro s ds hp hr
    obtain ⟨d', ds', rfl, hd, hr'⟩ := hr.inv
    obtain ⟨h1, h2, h3, h4, h5⟩ := hd
    have he : (⟨d'.src, d'.tgt, d.sym, d.bounds, d.kind⟩ : Dep) = d' := by rw [← h3, ← h4, ← h5]
    simp only [List.map_cons, Bld.acts, Bld.act, h1, h2, he, Dfa.addDeps, NetGraph.addDependencies]
    have hput : (putDfa B s).net = s.net := rfl
    rw [hput]
    cases hn : s.net.addDependency d' with
    | none => exact rfl
    | some n => exact ih (s := { s with net := n }) (hp.net (dep_same hn)) hr'

theorem sim_edge {D : Design} {k : Nat} {P : Dfa} {B : Bld} {env : List Nat} {s : Dfa} {i j a b : Nat}
    (hp : Pre k env B P s) (ha : env[i]? = some a) (hb : env[j]? = some b) :
    ExR (Post B env k P) (s.addPlain a b) ((putDfa B s).acts D env [.edge i j]) := by
  simp only [Bld.acts, Bld.act, ha, hb, Dfa.addPlain]
  have hput : (putDfa B s).net = s.net := rfl
  rw [hput]
  cases hn : s.net.call (.addEdge a b) with
  | none => exact rfl
  | some n => exact post_same (s := { s with net := n }) (hp.net (call_edge_same hn))

theorem sim_rvalue {D : Design} {k : Nat} {P : Dfa} (r : Ref) (b : BitRange) (o : Option Nat) :
    ∃ as, OwnActs D as ∧ ∀ (B : Bld) (env : List Nat) (s : Dfa) (o' : Option Nat), Pre k env B P s →
      ownNode env o = some o' →
      ExR (Post B env k P) (s.addRvalue ⟨D, B.vars, none⟩ r b o') ((putDfa B s).acts D env as) := by
  have hq : ∀ (B : Bld) (env : List Nat) (s : Dfa) (o' : Option Nat), Pre k env B P s →
      ownNode env o = some o' →
      ExR (Post B env k P) (.ok { s with queue := s.queue ++ [⟨r.sym, b, o', .none⟩] })
        ((putDfa B s).acts D env [.read r.sym b o .none]) := by
    intro B env s o' hp ho
    simp only [Bld.acts, Bld.act, ho]
    exact ⟨rfl, ⟨[], by simp⟩, hp.nodup, hp.len, hp.old, hp.trk, hp.cur, hp.nba⟩
  cases hk : D.kind r.sym with
  | modportPort =>
    cases o with
    | none =>
      refine ⟨[.read r.sym b none .none], .one trivial, fun B env s o' hp ho => ?_⟩
      have := ho
      simp only [ownNode, Option.some.injEq] at this
      subst this
      simp only [Dfa.addRvalue, hk]
      exact hq B env s none hp ho
    | some i =>
      refine ⟨[.mread r b i], .one hk, fun B env s o' hp ho => ?_⟩
      simp only [ownNode, Option.map_eq_some_iff] at ho
      obtain ⟨n, hn, rfl⟩ := ho
      simp only [Dfa.addRvalue, hk, Bld.acts, Bld.act, hn]
      have hv : (putDfa B s).vars = B.vars := rfl
      rw [hv]
      unfold Dfa.addDeps Bld.addDeps
      have hput : (putDfa B s).net = s.net := rfl
      rw [hput]
      cases hd : s.net.addDependencies (modportDeps ⟨D, B.vars, none⟩ r b n) with
      | none => exact rfl
      | some n' => exact post_same (s := { s with net := n' }) (hp.net (deps_same hd))
  | «variable» =>
    refine ⟨[.read r.sym b o .none], .one trivial, fun B env s o' hp ho => ?_⟩
    simp only [Dfa.addRvalue, hk]
    exact hq B env s o' hp ho
  | other =>
    refine ⟨[.read r.sym b o .none], .one trivial, fun B env s o' hp ho => ?_⟩
    simp only [Dfa.addRvalue, hk]
    exact hq B env s o' hp ho

theorem sim_rvalues {D : Design} {k : Nat} {P : Dfa} (r : Ref) (o : Option Nat) (es : List (Ivl Unit)) :
    ∃ as, OwnActs D as ∧ ∀ (B : Bld) (env : List Nat) (s : Dfa) (o' : Option Nat), Pre k env B P s →
      ownNode env o = some o' →
      ExR (Post B env k P) (s.addRvalues ⟨D, B.vars, none⟩ r o' es) ((putDfa B s).acts D env as) := by
  induction es with
  | nil => exact ⟨[], .nil, fun B env s o' hp _ => post_same hp⟩
  | cons e es ih =>
    obtain ⟨as, o1, h1⟩ := sim_rvalue (D := D) (k := k) (P := P) r ⟨e.lo, e.hi⟩ o
    obtain ⟨bs, o2, h2⟩ := ih
    refine ⟨as ++ bs, o1.append o2, fun B env s o' hp ho => ?_⟩
    simp only [Dfa.addRvalues]
    refine post_seq (h1 B env s o' hp ho) fun env' s' hx hp' => ?_
    obtain ⟨xs, rfl⟩ := hx
    exact h2 B _ s' o' hp' (ownNode_mono ho xs)

/-! ### Reads -/

theorem driverDeps_rel {env : List Nat} {l l' : List DriverInfo} {i n : Nat} (h : driversOf env l = some l')
    (hn : env[i]? = some n) (ref : SymRef) (b : BitRange) :
    Rw (DepR env) (driverDeps l i ref b) (driverDeps l' n ref b) := by
  induction l generalizing l' with
  | nil => cases h; exact Rw.nil
  | cons d ds ih =>
    obtain ⟨o, t, rfl, h1, h2⟩ := driversOf_cons h
    have := ih h2
    unfold driverDeps at this ⊢
    obtain ⟨dn, dl⟩ := d
    cases dn with
    | none =>
      simp only [ownNode, Option.some.injEq] at h1
      subst h1
      simpa using this
    | some j =>
      simp only [ownNode, Option.map_eq_some_iff] at h1
      obtain ⟨a, ha, rfl⟩ := h1
      simp only [List.filterMap_cons, Option.map_some]
      exact Rw.cons ⟨ha, hn, rfl, rfl, rfl⟩ this

theorem readLoop_rel {env : List Nat} {m m' : DMap} {i n : Nat} (h : MapR env m m') (hn : env[i]? = some n)
    (b : BitRange) (ref : SymRef) (it : List (Ivl Nat)) :
    ExR (fun p p' => Rw (DepR env) p.1 p'.1 ∧ p'.2 = p.2) (readLoop m b i ref it) (readLoop m' b n ref it) := by
  induction it with
  | nil => exact ⟨Rw.nil, rfl⟩
  | cons e es ih =>
    simp only [readLoop]
    have hg := map_getList h e.val
    cases h1 : m.getList e.val with
    | error f =>
      cases h2 : m'.getList e.val with
      | error g => rw [h1, h2] at hg; exact hg
      | ok l' => rw [h1, h2] at hg; exact hg.elim
    | ok l =>
      cases h2 : m'.getList e.val with
      | error g => rw [h1, h2] at hg; exact hg.elim
      | ok l' =>
        rw [h1, h2] at hg
        dsimp only
        split
        · exact ⟨driverDeps_rel hg hn ref b, rfl⟩
        · cases h3 : readLoop m b i ref es with
          | error f =>
            cases h4 : readLoop m' b n ref es with
            | error g => rw [h3, h4] at ih; exact ih
            | ok p' => rw [h3, h4] at ih; exact ih.elim
          | ok p =>
            cases h4 : readLoop m' b n ref es with
            | error g => rw [h3, h4] at ih; exact ih.elim
            | ok p' =>
              rw [h3, h4] at ih
              obtain ⟨d1, f1⟩ := p
              obtain ⟨d2, f2⟩ := p'
              obtain ⟨h5, h6⟩ := ih
              dsimp only at h5 h6 ⊢
              subst h6
              split
              · exact ⟨(driverDeps_rel hg hn ref b).append h5, rfl⟩
              · exact ⟨h5, rfl⟩

theorem sim_read {D : Design} (k : Nat) (P : Dfa) (r : Ref) :
    ∃ as, OwnActs D as ∧ Sim D k P (fun c s => s.handleRvalue c r) as k P := by
  unfold Sim Dfa.handleRvalue
  have hmap : ∀ (B : Bld) (env : List Nat) (s : Dfa), Pre k env B P s →
      (((P.trk.getSlot r.sym).bind fun i => P.cur.drv[i]?) = none ∧
        ((s.trk.getSlot r.sym).bind fun i => s.cur.drv[i]?) = none) ∨
      ∃ m m', ((P.trk.getSlot r.sym).bind fun i => P.cur.drv[i]?) = some m ∧
        ((s.trk.getSlot r.sym).bind fun i => s.cur.drv[i]?) = some m' ∧ MapR env m m' := by
    intro B env s hp
    rw [hp.trk]
    cases P.trk.getSlot r.sym with
    | none => exact Or.inl ⟨rfl, rfl⟩
    | some i => exact hp.cur.drv.get i
  cases hP : (P.trk.getSlot r.sym).bind fun i => P.cur.drv[i]? with
  | none =>
    obtain ⟨as, o1, h⟩ := sim_rvalue (D := D) (k := k) (P := P) r r.bounds P.cur.node
    refine ⟨as, o1, fun B env s hp => ?_⟩
    dsimp only
    rcases hmap B env s hp with ⟨_, h2⟩ | ⟨m, m', h1, _⟩
    · rw [h2,]
      have := h B env s s.cur.node hp hp.cur.node
      dsimp only
      cases hc : s.cur.node <;> (rw [hc] at this; exact this)
    · rw [hP] at h1; cases h1
  | some m =>
    cases hN : P.cur.node with
    | none =>
      obtain ⟨as, o1, h⟩ := sim_rvalue (D := D) (k := k) (P := P) r r.bounds none
      refine ⟨as, o1, fun B env s hp => ?_⟩
      dsimp only
      rcases hmap B env s hp with ⟨h1, _⟩ | ⟨m1, m', h1, h2, _⟩
      · rw [hP] at h1; cases h1
      · have hc := hp.cur.node
        rw [hN] at hc
        simp only [ownNode, Option.some.injEq] at hc
        rw [h2, ← hc,]
        exact h B env s none hp rfl
    | some i =>
      cases hL : readLoop m r.bounds i (D.ref r.sym) (imFind m.ivls r.bounds.lower r.bounds.upper) with
      | error f =>
        refine ⟨[.fault f], .one trivial, fun B env s hp => ?_⟩
        dsimp only
        rcases hmap B env s hp with ⟨h1, _⟩ | ⟨m1, m', h1, h2, hm⟩
        · rw [hP] at h1; cases h1
        · rw [hP] at h1
          cases h1
          have hc := hp.cur.node
          rw [hN] at hc
          simp only [ownNode, Option.map_eq_some_iff] at hc
          obtain ⟨n, hn, hc⟩ := hc
          have hr := readLoop_rel hm hn r.bounds (D.ref r.sym) (imFind m.ivls r.bounds.lower r.bounds.upper)
          rw [hL] at hr
          rw [h2, ← hc]
          dsimp only
          rw [hm.ivls]
          cases h4 : readLoop m' r.bounds n (D.ref r.sym) (imFind m.ivls r.bounds.lower r.bounds.upper) with
          | error g => rw [h4] at hr; exact hr.symm
          | ok p => rw [h4] at hr; exact hr.elim
      | ok p =>
        obtain ⟨ds, fin⟩ := p
        have hrest : ∃ bs, OwnActs D bs ∧ ∀ (B : Bld) (env : List Nat) (s : Dfa) (n : Nat), Pre k env B P s →
            env[i]? = some n →
            ExR (Post B env k P)
              (if fin then .ok s else
                match imDifference [⟨r.bounds.lower, r.bounds.upper, ()⟩] m.ivls with
                | .error f => .error f
                | .ok rest => s.addRvalues ⟨D, B.vars, none⟩ r (some n) rest)
              ((putDfa B s).acts D env bs) := by
          cases fin with
          | true => exact ⟨[], .nil, fun B env s n hp _ => post_same hp⟩
          | false =>
            cases hD : imDifference [(⟨r.bounds.lower, r.bounds.upper, ()⟩ : Ivl Unit)] m.ivls with
            | error f => exact ⟨[.fault f], .one trivial, fun B env s n hp _ => rfl⟩
            | ok rest =>
              obtain ⟨bs, o2, h⟩ := sim_rvalues (D := D) (k := k) (P := P) r (some i) rest
              exact ⟨bs, o2, fun B env s n hp hn => h B env s (some n) hp (by simp [ownNode, hn])⟩
        obtain ⟨bs, o3, hbs⟩ := hrest
        refine ⟨ds.map .dep ++ bs, (OwnActs.deps ds).append o3, fun B env s hp => ?_⟩
        dsimp only
        rcases hmap B env s hp with ⟨h1, _⟩ | ⟨m1, m', h1, h2, hm⟩
        · rw [hP] at h1; cases h1
        · rw [hP] at h1
          cases h1
          have hc := hp.cur.node
          rw [hN] at hc
          simp only [ownNode, Option.map_eq_some_iff] at hc
          obtain ⟨n, hn, hc⟩ := hc
          have hr := readLoop_rel hm hn r.bounds (D.ref r.sym) (imFind m.ivls r.bounds.lower r.bounds.upper)
          rw [hL] at hr
          rw [h2, ← hc]
          dsimp only
          rw [hm.ivls]
          cases h4 : readLoop m' r.bounds n (D.ref r.sym) (imFind m.ivls r.bounds.lower r.bounds.upper) with
          | error g => rw [h4] at hr; exact hr.elim
          | ok p =>
            rw [h4] at hr
            obtain ⟨ds', fin'⟩ := p
            obtain ⟨h5, h6⟩ := hr
            dsimp only at h5 h6 ⊢
            subst h6
            refine post_seq (sim_deps hp h5) fun env' s' hx hp' => ?_
            obtain ⟨xs, rfl⟩ := hx
            refine hbs B _ s' n hp' ?_
            have hi : i < env.length := (List.getElem?_eq_some_iff.1 hn).1
            rw [List.getElem?_append_left hi]; exact hn

/-! ### Writes -/

theorem sim_write {D : Design} (k : Nat) (P : Dfa) (blocking : Bool) (r : Ref) :
    ∃ as P', OwnActs D as ∧ Sim D k P (fun _ s => s.handleLvalue blocking r) as k P' := by
  unfold Sim Dfa.handleLvalue
  cases blocking with
  | false =>
    refine ⟨[], { P with nba := P.nba ++ [⟨r.sym, r.bounds, r.lsp, P.cur.node⟩] }, .nil, fun B env s hp => ?_⟩
    refine ⟨rfl, ⟨[], by simp⟩, hp.nodup, hp.len, hp.old, hp.trk, hp.cur, ?_⟩
    exact hp.nba.append (Rw.cons ⟨rfl, rfl, rfl, hp.cur.node⟩ Rw.nil)
  | true =>
    have hr : ∀ (B : Bld) (env : List Nat) (s : Dfa), Pre k env B P s → ExR (TrkR env)
        (P.trk.addDrivers P.cur.drv r.sym ⟨r.bounds, [⟨P.cur.node, r.lsp⟩], false⟩)
        (s.trk.addDrivers s.cur.drv r.sym ⟨r.bounds, [⟨s.cur.node, r.lsp⟩], false⟩) := by
      intro B env s hp
      rw [hp.trk]
      exact trk_addDrivers hp.nodup hp.cur.drv (driversOf_mk hp.cur.node rfl) _ _ _ _
    simp only [Bool.not_true, Bool.false_eq_true, if_false]
    cases hP : P.trk.addDrivers P.cur.drv r.sym ⟨r.bounds, [⟨P.cur.node, r.lsp⟩], false⟩ with
    | error f =>
      refine ⟨[.fault f], P, .one trivial, fun B env s hp => ?_⟩
      have := hr B env s hp
      rw [hP] at this
      cases h : s.trk.addDrivers s.cur.drv r.sym ⟨r.bounds, [⟨s.cur.node, r.lsp⟩], false⟩ with
      | error g => rw [h] at this; exact this.symm
      | ok p => rw [h] at this; exact this.elim
    | ok q =>
      refine ⟨[], { P with trk := q.1, cur := { P.cur with drv := q.2 } }, .nil, fun B env s hp => ?_⟩
      have := hr B env s hp
      rw [hP] at this
      cases h : s.trk.addDrivers s.cur.drv r.sym ⟨r.bounds, [⟨s.cur.node, r.lsp⟩], false⟩ with
      | error g => rw [h] at this; exact this.elim
      | ok p =>
        rw [h] at this
        obtain ⟨t, d⟩ := p
        exact ⟨rfl, ⟨[], by simp⟩, hp.nodup, hp.len, hp.old, this.1,
          ⟨this.2, hp.cur.node, hp.cur.cond, hp.cur.reach⟩, hp.nba⟩

/-! ### The functions of the analysis -/

/-- Some operations do what the function does. -/
def HasSim (D : Design) (F : DfaCtx → Dfa → Except Fault Dfa) : Prop :=
  ∀ k P, ∃ as k' P', OwnActs D as ∧ Sim D k P F as k' P'

theorem HasSim.seq {D : Design} {F G : DfaCtx → Dfa → Except Fault Dfa} (h1 : HasSim D F) (h2 : HasSim D G) :
    HasSim D (fun c s => match F c s with | .error f => .error f | .ok s' => G c s') := by
  intro k P
  obtain ⟨as, k', P', oa, ha⟩ := h1 k P
  obtain ⟨bs, k'', P'', ob, hb⟩ := h2 k' P'
  exact ⟨as ++ bs, k'', P'', oa.append ob, ha.seq hb⟩

theorem HasSim.same {D : Design} : HasSim D (fun c s => .ok s) :=
  fun k P => ⟨[], k, P, .nil, fun _ _ _ hp => post_same hp⟩

theorem has_read {D : Design} (r : Ref) : HasSim D (fun c s => s.handleRvalue c r) :=
  fun k P => let ⟨as, o, h⟩ := sim_read k P r; ⟨as, k, P, o, h⟩

theorem has_write {D : Design} (b : Bool) (r : Ref) : HasSim D (fun _ s => s.handleLvalue b r) :=
  fun k P => let ⟨as, P', o, h⟩ := sim_write k P b r; ⟨as, k, P', o, h⟩

theorem has_note {D : Design} (b : Bool) (x : Note) :
    HasSim D (fun c s => s.noteRef c b x) := by
  intro k P
  unfold Sim Dfa.noteRef
  cases hr : P.cur.reach with
  | false =>
    refine ⟨[], k, P, .nil, fun B env s hp => ?_⟩
    dsimp only; rw [hp.cur.reach, hr]
    exact post_same hp
  | true =>
    cases hx : x.ref.auto with
    | true =>
      refine ⟨[], k, P, .nil, fun B env s hp => ?_⟩
      dsimp only; rw [hp.cur.reach, hr]
      exact post_same hp
    | false =>
      cases hw : x.write with
      | true =>
        obtain ⟨as, k', P', o, h⟩ := has_write (D := D) b x.ref k P
        refine ⟨as, k', P', o, fun B env s hp => ?_⟩
        dsimp only; rw [hp.cur.reach, hr]
        exact h B env s hp
      | false =>
        obtain ⟨as, k', P', o, h⟩ := has_read x.ref k P
        refine ⟨as, k', P', o, fun B env s hp => ?_⟩
        dsimp only; rw [hp.cur.reach, hr]
        exact h B env s hp

theorem has_notes {D : Design} (b : Bool) (xs : List Note) :
    HasSim D (fun c s => s.noteRefs c b xs) := by
  induction xs with
  | nil => exact HasSim.same
  | cons x xs ih => exact (has_note b x).seq ih

theorem has_lhs {D : Design} (b : Bool) (rs : List Ref) : HasSim D (fun c s => s.segLhs b rs) := by
  induction rs with
  | nil => exact HasSim.same
  | cons r rs ih => exact (has_write b r).seq ih

/-! ### New nodes -/

theorem call_node (net : NetGraph) (d : NodeData) : ∃ net', net.call (.addNode d) = some net' ∧
    net'.g.nextNode = net.g.nextNode + 1 := ⟨_, rfl, rfl⟩

/-- A new node, and then something that may use it by its position. -/
theorem sim_node {D : Design} {k : Nat} {env : List Nat} {B : Bld} {P s : Dfa} (hp : Pre k env B P s)
    (d : NodeData) {k' : Nat} {P' : Dfa} {bs : List BAct} {G : Dfa → Nat → Except Fault Dfa}
    (h : ∀ (s' : Dfa) (n : Nat), s'.cur = s.cur → Pre (k + 1) (env ++ [n]) B P s' →
      (env ++ [n])[k]? = some n →
      ExR (Post B (env ++ [n]) k' P') (G s' n) ((putDfa B s').acts D (env ++ [n]) bs)) :
    ExR (Post B env k' P')
      (match s.newNode d with | .error f => .error f | .ok (s1, n) => G s1 n)
      ((putDfa B s).acts D env (.node d :: bs)) := by
  obtain ⟨net', hc, hn⟩ := call_node s.net d
  have hput : (putDfa B s).net = s.net := rfl
  simp only [Dfa.newNode, hc, Bld.acts, Bld.act, hput]
  have hpre : Pre (k + 1) (env ++ [s.net.g.nextNode]) B P { s with net := net' } := by
    refine ⟨?_, by simp [hp.len], ?_, hp.trk, hp.cur.mono _, ?_⟩
    · rw [List.nodup_append]
      refine ⟨hp.nodup, by simp, ?_⟩
      intro a ha b hb
      simp only [List.mem_singleton] at hb
      have := hp.old a ha
      omega
    · intro n hm
      show n < net'.g.nextNode
      rw [hn]
      simp only [List.mem_append, List.mem_singleton] at hm
      rcases hm with hm | hm
      · have := hp.old n hm; omega
      · omega
    · exact hp.nba.mono fun a b hab => ⟨hab.1, hab.2.1, hab.2.2.1, ownNode_mono hab.2.2.2 _⟩
  have hk : (env ++ [s.net.g.nextNode])[k]? = some s.net.g.nextNode := by
    rw [← hp.len, List.getElem?_append_right (by omega)]; simp
  refine (h { s with net := net' } s.net.g.nextNode rfl hpre hk).mono fun a q hq => ?_
  obtain ⟨e3, ⟨ys, e4⟩, hq⟩ := hq
  exact ⟨e3, ⟨[s.net.g.nextNode] ++ ys, by rw [e4, List.append_assoc]⟩, hq⟩

theorem sim_update {D : Design} {k : Nat} {env : List Nat} {B : Bld} {P s : Dfa} (hp : Pre k env B P s)
    {i n : Nat} (hn : env[i]? = some n) (cnd : Bool) :
    ExR (Post B env k { P with cur := { P.cur with cond := if cnd then some i else none, node := some i } })
      (s.updateNode n cnd)
      ((putDfa B s).acts D env (match P.cur.cond with | none => [] | some j => [.edge j i])) := by
  have hfin : ∀ s : Dfa, Pre k env B P s → Pre k env B
      { P with cur := { P.cur with cond := if cnd then some i else none, node := some i } }
      { s with cur := { s.cur with cond := if cnd then some n else none, node := some n } } := by
    intro s hp
    refine ⟨hp.nodup, hp.len, hp.old, hp.trk, ⟨hp.cur.drv, ?_, ?_, hp.cur.reach⟩, hp.nba⟩
    · simp [ownNode, hn]
    · cases cnd <;> simp [ownNode, hn]
  unfold Dfa.updateNode
  dsimp only
  have hc := hp.cur.cond
  cases hC : P.cur.cond with
  | none =>
    rw [hC] at hc
    simp only [ownNode, Option.some.injEq] at hc
    rw [← hc]
    exact ⟨rfl, ⟨[], by simp⟩, hfin s hp⟩
  | some j =>
    rw [hC] at hc
    simp only [ownNode, Option.map_eq_some_iff] at hc
    obtain ⟨a, ha, hc⟩ := hc
    rw [← hc]
    dsimp only
    have := post_seq (k'' := k)
      (P'' := { P with cur := { P.cur with cond := if cnd then some i else none, node := some i } })
      (bs := []) (G := fun s' => .ok { s' with cur := { s'.cur with
        cond := if cnd then some n else none, node := some n } })
      (sim_edge (D := D) hp ha hn) (fun env' s' hx hp' => by
        obtain ⟨xs, rfl⟩ := hx
        refine ⟨rfl, ⟨[], by simp⟩, hp'.nodup, hp'.len, hp'.old, hp'.trk,
          ⟨hp'.cur.drv, ?_, ?_, hp'.cur.reach⟩, hp'.nba⟩
        · exact ownNode_mono (o := some i) (by simp [ownNode, hn]) xs
        · cases cnd
          · rfl
          · exact ownNode_mono (o := some i) (by simp [ownNode, hn]) xs)
    rw [List.append_nil] at this
    exact this

/-- A new node becomes the current one. -/
theorem has_new {D : Design} (d : NodeData) (cnd : Bool) (hd : OwnAct D (.node d)) :
    HasSim D (fun c s => match s.newNode d with | .error f => .error f | .ok (s1, n) => s1.updateNode n cnd) := by
  intro k P
  refine ⟨.node d :: (match P.cur.cond with | none => [] | some j => [.edge j k]), k + 1,
    { P with cur := { P.cur with cond := if cnd then some k else none, node := some k } }, .cons hd ?_, ?_⟩
  · cases P.cur.cond with
    | none => exact .nil
    | some j => exact .one trivial
  intro B env s hp
  exact sim_node hp d fun s' n _ hp' hk => sim_update hp' hk cnd

theorem has_start {D : Design} (loc : TextLoc) : HasSim D (fun c s => s.startAssign loc) :=
  has_new (.assignment loc) _ trivial

theorem has_branch {D : Design} (b : Bool) (loc : TextLoc) : HasSim D (fun c s => s.branch b loc) :=
  has_new (if b then .case loc else .conditional loc) _ (by cases b <;> trivial)

theorem has_src {D : Design} (b : Bool) (x : RSrc) :
    HasSim D (fun c s => s.segSrc c b x) := by
  cases x with
  | lsp r => exact has_read r
  | «opaque» rs => exact has_notes b _
  | padding => exact HasSim.same
  | constant v w l =>
    intro k P
    unfold Sim Dfa.segSrc
    cases hN : P.cur.node with
    | none =>
      refine ⟨[], k, P, .nil, fun B env s hp => ?_⟩
      have hc := hp.cur.node
      rw [hN] at hc
      simp only [ownNode, Option.some.injEq] at hc
      dsimp only
      rw [← hc]
      exact post_same hp
    | some i =>
      refine ⟨[.node (.constant v w l), .edge k i], k + 1, P, .cons trivial (.one trivial), fun B env s hp => ?_⟩
      have hc := hp.cur.node
      rw [hN] at hc
      simp only [ownNode, Option.map_eq_some_iff] at hc
      obtain ⟨n, hn, hc⟩ := hc
      dsimp only
      rw [← hc]
      dsimp only
      refine sim_node (G := fun s1 m => s1.addPlain m n) hp _ fun s' m _ hp' hk => ?_
      refine sim_edge (D := D) hp' hk ?_
      have hi : i < env.length := (List.getElem?_eq_some_iff.1 hn).1
      rw [List.getElem?_append_left hi]; exact hn

theorem has_rhs {D : Design} (b : Bool) (xs : List RSrc) :
    HasSim D (fun c s => s.segRhs c b xs) := by
  induction xs with
  | nil => exact HasSim.same
  | cons x xs ih => exact (has_src b x).seq ih

theorem has_body {D : Design} (b : Bool) (g : DSeg) :
    HasSim D (fun c s => s.segBody c b g) := (has_lhs b g.lhs).seq (has_rhs b g.rhs)

theorem sim_segments {D : Design} (b : Bool) (o q : Option Nat) (gs : List DSeg) :
    ∀ k P, ∃ as k' P', OwnActs D as ∧ ∀ (B : Bld) (env : List Nat) (s : Dfa) (o' q' : Option Nat), Pre k env B P s →
      ownNode env o = some o' → ownNode env q = some q' →
      ExR (Post B env k' P') (s.segments ⟨D, B.vars, none⟩ b o' q' gs) ((putDfa B s).acts D env as) := by
  induction gs with
  | nil => intro k P; exact ⟨[], k, P, .nil, fun B env s o' q' hp _ _ => post_same hp⟩
  | cons g gs ih =>
    intro k P
    obtain ⟨as, k1, P1, o1, h1⟩ :=
      (has_start (D := D) g.loc).seq (has_body b g) k { P with cur := { P.cur with node := o, cond := q } }
    obtain ⟨bs, k2, P2, o2, h2⟩ := ih k1 P1
    refine ⟨as ++ bs, k2, P2, o1.append o2, fun B env s o' q' hp ho hq => ?_⟩
    have hp0 : Pre k env B { P with cur := { P.cur with node := o, cond := q } }
        { s with cur := { s.cur with node := o', cond := q' } } :=
      ⟨hp.nodup, hp.len, hp.old, hp.trk, ⟨hp.cur.drv, ho, hq, hp.cur.reach⟩, hp.nba⟩
    have := post_seq (G := fun s' => s'.segments ⟨D, B.vars, none⟩ b o' q' gs) (h1 B env _ hp0)
      (fun env' s' hx hp' => by
        obtain ⟨xs, rfl⟩ := hx
        exact h2 B _ s' o' q' hp' (ownNode_mono ho xs) (ownNode_mono hq xs))
    simp only [Dfa.segments]
    have e : putDfa B { s with cur := { s.cur with node := o', cond := q' } } = putDfa B s := rfl
    rw [e] at this
    dsimp only at this ⊢
    cases hs : Dfa.startAssign ⟨s.net, s.trk, s.queue, s.nba, ⟨s.cur.drv, o', q', s.cur.reach⟩⟩ g.loc with
    | error f => rw [hs] at this; exact this
    | ok s1 => rw [hs] at this; exact this

theorem has_assign {D : Design} (loc : TextLoc) (b : Bool) (a : Asg) :
    HasSim D (fun c s => s.assign c loc b a) := by
  cases a with
  | legacy notes => exact (has_start loc).seq (has_notes b notes)
  | aligned segs =>
    intro k P
    obtain ⟨as, k', P', o, h⟩ := sim_segments b P.cur.node P.cur.cond segs k P
    exact ⟨as, k', P', o, fun B env s hp => h B env s _ _ hp hp.cur.node hp.cur.cond⟩

/-! ### Joins -/

theorem mergeIvls_rel {env : List Nat} (hn : env.Nodup) {m m' : DMap} (h : MapR env m m')
    (sym : Option Nat) (es : List (Ivl Nat)) : ∀ (t : Tracker) {drv drv' : List DMap},
    Rw (MapR env) drv drv' →
    ExR (TrkR env) (mergeIvls m sym t drv es) (mergeIvls m' sym t drv' es) := by
  induction es with
  | nil => intro t drv drv' hd; exact ⟨rfl, hd⟩
  | cons e es ih =>
    intro t drv drv' hd
    simp only [mergeIvls]
    have hg := map_getList h e.val
    cases h1 : m.getList e.val with
    | error f =>
      cases h2 : m'.getList e.val with
      | error g => rw [h1, h2] at hg; exact hg
      | ok l' => rw [h1, h2] at hg; exact hg.elim
    | ok l =>
      cases h2 : m'.getList e.val with
      | error g => rw [h1, h2] at hg; exact hg.elim
      | ok l' =>
        rw [h1, h2] at hg
        cases sym with
        | none => exact rfl
        | some y =>
          dsimp only
          have hr := trk_addDrivers hn hd hg t y ⟨e.lo, e.hi⟩ true
          cases h3 : t.addDrivers drv y ⟨⟨e.lo, e.hi⟩, l, true⟩ with
          | error f =>
            cases h4 : t.addDrivers drv' y ⟨⟨e.lo, e.hi⟩, l', true⟩ with
            | error g => rw [h3, h4] at hr; exact hr
            | ok p => rw [h3, h4] at hr; exact hr.elim
          | ok p =>
            cases h4 : t.addDrivers drv' y ⟨⟨e.lo, e.hi⟩, l', true⟩ with
            | error g => rw [h3, h4] at hr; exact hr.elim
            | ok p' =>
              rw [h3, h4] at hr
              obtain ⟨t1, d1⟩ := p
              obtain ⟨t2, d2⟩ := p'
              obtain ⟨h5, h6⟩ := hr
              dsimp only at h5 h6 ⊢
              subst h5
              exact ih t2 h6

theorem mergeDrv_rel {env : List Nat} (hn : env.Nodup) (ms : List DMap) : ∀ (t : Tracker) (i : Nat)
    {drv drv' ms' : List DMap}, Rw (MapR env) drv drv' → Rw (MapR env) ms ms' →
    ExR (TrkR env) (mergeDrv t drv i ms) (mergeDrv t drv' i ms') := by
  induction ms with
  | nil =>
    intro t i drv drv' ms' hd hm
    have : ms' = [] := List.length_eq_zero_iff.1 hm.1.symm
    subst this
    exact ⟨rfl, hd⟩
  | cons m ms ih =>
    intro t i drv drv' ms' hd hm
    obtain ⟨m', ms', rfl, h1, h2⟩ := hm.inv
    simp only [mergeDrv]
    rw [h1.ivls]
    have hr := mergeIvls_rel hn h1 (t.symbolOf i) m.ivls t hd
    cases h3 : mergeIvls m (t.symbolOf i) t drv m.ivls with
    | error f =>
      cases h4 : mergeIvls m' (t.symbolOf i) t drv' m.ivls with
      | error g => rw [h3, h4] at hr; exact hr
      | ok p => rw [h3, h4] at hr; exact hr.elim
    | ok p =>
      cases h4 : mergeIvls m' (t.symbolOf i) t drv' m.ivls with
      | error g => rw [h3, h4] at hr; exact hr.elim
      | ok p' =>
        rw [h3, h4] at hr
        obtain ⟨t1, d1⟩ := p
        obtain ⟨t2, d2⟩ := p'
        obtain ⟨h5, h6⟩ := hr
        dsimp only at h5 h6 ⊢
        subst h5
        exact ih t2 (i + 1) h6 h2

/-- The merging of two nodes, and then something that may use the result. -/
theorem sim_merge {D : Design} (k : Nat) (P : Dfa) (a b : Option Nat) :
    ∃ as k' o, OwnActs D as ∧ ∀ (B : Bld) (env : List Nat) (s : Dfa) (a' b' : Option Nat), Pre k env B P s →
      ownNode env a = some a' → ownNode env b = some b' →
      ∀ {k'' : Nat} {P'' : Dfa} {bs : List BAct} {G : Dfa → Option Nat → Except Fault Dfa},
      (∀ env' s' o', (∃ xs, env' = env ++ xs) → s'.cur = s.cur → Pre k' env' B P s' →
        ownNode env' o = some o' →
        ExR (Post B env' k'' P'') (G s' o') ((putDfa B s').acts D env' bs)) →
      ExR (Post B env k'' P'')
        (match s.mergeNodes a' b' with | .error f => .error f | .ok (s1, o') => G s1 o')
        ((putDfa B s).acts D env (as ++ bs)) := by
  have hskip : ∀ o : Option Nat, (∀ (env : List Nat) (a' b' : Option Nat) (s : Dfa), env.Nodup →
        ownNode env a = some a' →
        ownNode env b = some b' → ∃ o', ownNode env o = some o' ∧ s.mergeNodes a' b' = .ok (s, o')) →
      ∃ as k' o, OwnActs D as ∧ ∀ (B : Bld) (env : List Nat) (s : Dfa) (a' b' : Option Nat), Pre k env B P s →
      ownNode env a = some a' → ownNode env b = some b' →
      ∀ {k'' : Nat} {P'' : Dfa} {bs : List BAct} {G : Dfa → Option Nat → Except Fault Dfa},
      (∀ env' s' o', (∃ xs, env' = env ++ xs) → s'.cur = s.cur → Pre k' env' B P s' →
        ownNode env' o = some o' →
        ExR (Post B env' k'' P'') (G s' o') ((putDfa B s').acts D env' bs)) →
      ExR (Post B env k'' P'')
        (match s.mergeNodes a' b' with | .error f => .error f | .ok (s1, o') => G s1 o')
        ((putDfa B s).acts D env (as ++ bs)) := by
    intro o ho
    refine ⟨[], k, o, .nil, fun B env s a' b' hp ha hb k'' P'' bs G hG => ?_⟩
    obtain ⟨o', h1, h2⟩ := ho env a' b' s hp.nodup ha hb
    rw [h2]
    exact hG env s o' ⟨[], by simp⟩ rfl hp h1
  cases a with
  | none =>
    refine hskip b fun env a' b' s _ ha hb => ⟨b', hb, ?_⟩
    simp only [ownNode, Option.some.injEq] at ha
    subst ha
    cases b' <;> rfl
  | some i =>
    cases b with
    | none =>
      refine hskip (some i) fun env a' b' s _ ha hb => ⟨a', ha, ?_⟩
      simp only [ownNode, Option.some.injEq] at hb
      subst hb
      cases a' <;> rfl
    | some j =>
      by_cases hij : i = j
      · subst hij
        refine hskip none fun env a' b' s _ ha hb => ⟨none, rfl, ?_⟩
        rw [ha] at hb
        cases hb
        simp only [ownNode, Option.map_eq_some_iff] at ha
        obtain ⟨n, _, rfl⟩ := ha
        simp [Dfa.mergeNodes]
      · refine ⟨[.node .merge, .edge i k, .edge j k], k + 1, some k,
          .cons trivial (.cons trivial (.one trivial)),
          fun B env s a' b' hp ha hb k'' P'' bs G hG => ?_⟩
        have hne := ownNode_inj hp.nodup ha hb
        simp only [ownNode, Option.map_eq_some_iff] at ha hb
        obtain ⟨x, hx, rfl⟩ := ha
        obtain ⟨y, hy, rfl⟩ := hb
        have hxy : x ≠ y := by
          intro e
          subst e
          simp at hne
          exact hij hne
        simp only [Dfa.mergeNodes, ne_eq, hxy, not_false_eq_true, if_true]
        have hi : i < env.length := (List.getElem?_eq_some_iff.1 hx).1
        have hj : j < env.length := (List.getElem?_eq_some_iff.1 hy).1
        have key := sim_node (D := D) (k' := k'') (P' := P'') (bs := [.edge i k] ++ ([.edge j k] ++ bs))
          (G := fun s1 n => match s1.addPlain x n with
            | .error f => .error f
            | .ok s2 => match s2.addPlain y n with
              | .error f => .error f
              | .ok s3 => G s3 (some n)) hp .merge (fun s1 n hcur hp1 hk => by
          have hx1 : (env ++ [n])[i]? = some x := by rw [List.getElem?_append_left hi]; exact hx
          have hy1 : (env ++ [n])[j]? = some y := by rw [List.getElem?_append_left hj]; exact hy
          have hkl : k < (env ++ [n]).length := (List.getElem?_eq_some_iff.1 hk).1
          have hcur1 : ∀ s2, s1.addPlain x n = .ok s2 → s2.cur = s1.cur := by
            intro s2 h
            unfold Dfa.addPlain at h
            split at h
            · cases h
            · cases h; rfl
          have e1 := sim_edge (D := D) hp1 hx1 hk
          cases hs1 : s1.addPlain x n with
          | error f =>
            rw [hs1] at e1
            rw [acts_append]
            cases hy2 : (putDfa B s1).acts D (env ++ [n]) [.edge i k] with
            | error g => rw [hy2] at e1; exact e1
            | ok p => rw [hy2] at e1; exact e1.elim
          | ok s2 =>
            rw [hs1] at e1
            rw [acts_append]
            cases hy2 : (putDfa B s1).acts D (env ++ [n]) [.edge i k] with
            | error g => rw [hy2] at e1; exact e1.elim
            | ok p =>
              rw [hy2] at e1
              obtain ⟨g1, ⟨xs, g2⟩, hp2⟩ := e1
              dsimp only
              have hp2' := hp2
              rw [g2] at hp2'
              have hk2 : (env ++ [n] ++ xs)[k]? = some n := by
                rw [List.getElem?_append_left hkl]; exact hk
              have hy3 : (env ++ [n] ++ xs)[j]? = some y := by
                rw [List.getElem?_append_left (by simp; omega)]; exact hy1
              rw [g1, g2]
              have e2 := sim_edge (D := D) hp2' hy3 hk2
              cases hs3 : s2.addPlain y n with
              | error f =>
                rw [hs3] at e2
                rw [acts_append]
                cases hy4 : (putDfa B s2).acts D (env ++ [n] ++ xs) [.edge j k] with
                | error g => rw [hy4] at e2; exact e2
                | ok q => rw [hy4] at e2; exact e2.elim
              | ok s3 =>
                rw [hs3] at e2
                rw [acts_append]
                cases hy4 : (putDfa B s2).acts D (env ++ [n] ++ xs) [.edge j k] with
                | error g => rw [hy4] at e2; exact e2.elim
                | ok q =>
                  rw [hy4] at e2
                  obtain ⟨g3, ⟨ys, g4⟩, hp3⟩ := e2
                  dsimp only
                  rw [g3]
                  have hcur3 : s3.cur = s2.cur := by
                    unfold Dfa.addPlain at hs3
                    split at hs3
                    · cases hs3
                    · cases hs3; rfl
                  refine (hG q.2 s3 (some n) ⟨[n] ++ xs ++ ys, by rw [g4]; simp⟩
                    (by rw [hcur3, hcur1 s2 hs1, hcur]) hp3 ?_).mono fun u v hv => ?_
                  · rw [g4]
                    exact ownNode_mono (o := some k) (by simp only [ownNode, hk2, Option.map_some]) ys
                  · obtain ⟨v1, ⟨zs, v2⟩, v3⟩ := hv
                    exact ⟨v1, ⟨xs ++ ys ++ zs, by rw [v2, g4]; simp⟩, v3⟩)
        cases hs : s.newNode .merge with
        | error f => rw [hs] at key; exact key
        | ok p =>
          rw [hs] at key
          obtain ⟨s1, n⟩ := p
          dsimp only at key ⊢
          cases hs1 : s1.addPlain x n with
          | error f => rw [hs1] at key; exact key
          | ok s2 =>
            rw [hs1] at key
            dsimp only at key ⊢
            cases hs2 : s2.addPlain y n with
            | error f => rw [hs2] at key; exact key
            | ok s3 => rw [hs2] at key; exact key

theorem sim_join {D : Design} (k : Nat) (P : Dfa) (Q : Flow) :
    ∃ as k' P', OwnActs D as ∧ ∀ (B : Bld) (env : List Nat) (s : Dfa) (q : Flow), Pre k env B P s → FlowR env Q q →
      ExR (Post B env k' P') (s.joinState q) ((putDfa B s).acts D env as) := by
  unfold Dfa.joinState
  by_cases hr : P.cur.reach = Q.reach
  · have hm : ∀ (B : Bld) (env : List Nat) (s : Dfa) (q : Flow), Pre k env B P s → FlowR env Q q →
        ExR (TrkR env) (mergeDrv P.trk P.cur.drv 0 Q.drv) (mergeDrv s.trk s.cur.drv 0 q.drv) := by
      intro B env s q hp hq
      rw [hp.trk]
      exact mergeDrv_rel hp.nodup _ _ _ hp.cur.drv hq.drv
    cases hM : mergeDrv P.trk P.cur.drv 0 Q.drv with
    | error f =>
      refine ⟨[.fault f], k, P, .one trivial, fun B env s q hp hq => ?_⟩
      rw [if_pos (by rw [hp.cur.reach, hq.reach]; exact hr)]
      have := hm B env s q hp hq
      rw [hM] at this
      unfold Dfa.mergeStates
      cases h : mergeDrv s.trk s.cur.drv 0 q.drv with
      | error g => rw [h] at this; exact this.symm
      | ok p => rw [h] at this; exact this.elim
    | ok p =>
      obtain ⟨t, drv⟩ := p
      obtain ⟨as, k1, o, o1, h1⟩ := sim_merge (D := D) k { P with trk := t, cur := { P.cur with drv := drv } }
        P.cur.node Q.node
      obtain ⟨bs, k2, o2, o3, h2⟩ := sim_merge (D := D) k1 { P with trk := t, cur := { P.cur with drv := drv } }
        P.cur.cond Q.cond
      refine ⟨as ++ (bs ++ []), k2,
        { P with trk := t, cur := { P.cur with drv := drv, node := o, cond := o2 } },
        o1.append (o3.append .nil), fun B env s q hp hq => ?_⟩
      rw [if_pos (by rw [hp.cur.reach, hq.reach]; exact hr)]
      have := hm B env s q hp hq
      rw [hM] at this
      unfold Dfa.mergeStates
      cases h : mergeDrv s.trk s.cur.drv 0 q.drv with
      | error g => rw [h] at this; exact this.elim
      | ok p' =>
        rw [h] at this
        obtain ⟨t', drv'⟩ := p'
        obtain ⟨h3, h4⟩ := this
        dsimp only at h3 h4 ⊢
        have hp1 : Pre k env B { P with trk := t, cur := { P.cur with drv := drv } }
            { s with trk := t', cur := { s.cur with drv := drv' } } :=
          ⟨hp.nodup, hp.len, hp.old, h3, ⟨h4, hp.cur.node, hp.cur.cond, hp.cur.reach⟩, hp.nba⟩
        refine h1 B env _ _ _ hp1 hp.cur.node hq.node
          (G := fun s2 n => match s2.mergeNodes s2.cur.cond q.cond with
            | .error f => .error f
            | .ok (s3, kk) => .ok { s3 with cur := { s3.cur with node := n, cond := kk } })
          fun env' s' o' hx hcur hp2 ho => ?_
        obtain ⟨xs, rfl⟩ := hx
        refine h2 B _ s' _ _ hp2 hp2.cur.cond (ownNode_mono hq.cond xs)
          (G := fun s3 kk => .ok { s3 with cur := { s3.cur with node := o', cond := kk } })
          fun env'' s'' o'' hx hcur' hp3 ho' => ?_
        obtain ⟨ys, rfl⟩ := hx
        exact ⟨rfl, ⟨[], by simp⟩, hp3.nodup, hp3.len, hp3.old, hp3.trk,
          ⟨hp3.cur.drv, ownNode_mono ho ys, ho', hp3.cur.reach⟩, hp3.nba⟩
  · cases hR : P.cur.reach with
    | false =>
      refine ⟨[], k, { P with cur := Q }, .nil, fun B env s q hp hq => ?_⟩
      rw [if_neg (by rw [hp.cur.reach, hq.reach]; exact hr), hp.cur.reach, hR]
      exact ⟨rfl, ⟨[], by simp⟩, hp.nodup, hp.len, hp.old, hp.trk, hq, hp.nba⟩
    | true =>
      refine ⟨[], k, P, .nil, fun B env s q hp hq => ?_⟩
      rw [if_neg (by rw [hp.cur.reach, hq.reach]; exact hr), hp.cur.reach, hR]
      exact post_same hp

/-! ### Statements -/

theorem has_exec {D : Design} (st : Stmt) : HasSim D (fun c s => s.exec c st) := by
  induction st with
  | skip => exact HasSim.same
  | reads rs => exact has_notes true _
  | assign loc b a => exact has_assign loc b a
  | branch b loc => exact has_branch b loc
  | dead =>
    intro k P
    refine ⟨[], k, { P with cur := { reach := false } }, .nil, fun B env s hp => ?_⟩
    exact ⟨rfl, ⟨[], by simp⟩, hp.nodup, hp.len, hp.old, hp.trk, ⟨Rw.nil, rfl, rfl, rfl⟩, hp.nba⟩
  | seq a b iha ihb => exact iha.seq ihb
  | choose i a b iha ihb =>
    intro k P
    obtain ⟨as, k1, P1, o1, h1⟩ := iha k P
    obtain ⟨bs, k2, P2, o2, h2⟩ := ihb k1 { P1 with cur := P.cur }
    obtain ⟨cs, k3, P3, o3, h3⟩ := sim_join (D := D) k2 { P2 with cur := if i then P1.cur else P2.cur }
      (if i then P2.cur else P1.cur)
    refine ⟨as ++ (bs ++ cs), k3, P3, o1.append (o2.append o3), fun B env s hp => ?_⟩
    simp only [Dfa.exec]
    refine post_seq (h1 B env s hp) (G := fun s1 =>
      match ({ s1 with cur := s.cur } : Dfa).exec ⟨D, B.vars, none⟩ b with
      | .error f => .error f
      | .ok s2 =>
        if i then ({ s2 with cur := s1.cur } : Dfa).joinState s2.cur
        else s2.joinState s1.cur) fun env1 s1 hx hp1 => ?_
    obtain ⟨xs, rfl⟩ := hx
    have hp1' : Pre k1 (env ++ xs) B { P1 with cur := P.cur } { s1 with cur := s.cur } :=
      ⟨hp1.nodup, hp1.len, hp1.old, hp1.trk, hp.cur.mono xs, hp1.nba⟩
    refine post_seq (s0 := putDfa B s1) (h2 B _ _ hp1') (G := fun s2 =>
        if i then ({ s2 with cur := s1.cur } : Dfa).joinState s2.cur
        else s2.joinState s1.cur) fun env2 s2 hx hp2 => ?_
    obtain ⟨ys, rfl⟩ := hx
    cases i with
    | true =>
      exact h3 B _ { s2 with cur := s1.cur } s2.cur
        ⟨hp2.nodup, hp2.len, hp2.old, hp2.trk, hp1.cur.mono ys, hp2.nba⟩ hp2.cur
    | false => exact h3 B _ s2 s1.cur hp2 (hp1.cur.mono ys)

theorem sim_nba {D : Design} (k : Nat) (ws : List PendL) : ∀ P : Dfa, ∃ as P', OwnActs D as ∧ ∀ (B : Bld) (env : List Nat)
    (s : Dfa) (ws' : List PendL), Pre k env B P s → Rw (PendLR env) ws ws' →
    ExR (Post B env k P') (s.processNba ws') ((putDfa B s).acts D env as) := by
  induction ws with
  | nil =>
    intro P
    refine ⟨[], { P with nba := [] }, .nil, fun B env s ws' hp hw => ?_⟩
    have : ws' = [] := List.length_eq_zero_iff.1 hw.1.symm
    subst this
    exact ⟨rfl, ⟨[], by simp⟩, hp.nodup, hp.len, hp.old, hp.trk, hp.cur, Rw.nil⟩
  | cons w ws ih =>
    intro P
    have hr : ∀ (B : Bld) (env : List Nat) (s : Dfa) (w' : PendL), Pre k env B P s → PendLR env w w' →
        ExR (TrkR env) (P.trk.addDrivers P.cur.drv w.sym ⟨w.bounds, [⟨w.node, w.lsp⟩], false⟩)
        (s.trk.addDrivers s.cur.drv w'.sym ⟨w'.bounds, [⟨w'.node, w'.lsp⟩], false⟩) := by
      intro B env s w' hp hw
      obtain ⟨e1, e2, e3, e4⟩ := hw
      rw [hp.trk, e1, e2, e3]
      exact trk_addDrivers hp.nodup hp.cur.drv (driversOf_mk e4 rfl) _ _ _ _
    cases hP : P.trk.addDrivers P.cur.drv w.sym ⟨w.bounds, [⟨w.node, w.lsp⟩], false⟩ with
    | error f =>
      refine ⟨[.fault f], P, .one trivial, fun B env s ws' hp hw => ?_⟩
      obtain ⟨w', t, rfl, h1, h2⟩ := hw.inv
      have := hr B env s w' hp h1
      rw [hP] at this
      simp only [Dfa.processNba]
      cases h : s.trk.addDrivers s.cur.drv w'.sym ⟨w'.bounds, [⟨w'.node, w'.lsp⟩], false⟩ with
      | error g => rw [h] at this; exact this.symm
      | ok p => rw [h] at this; exact this.elim
    | ok q =>
      obtain ⟨as, P', o, h⟩ := ih { P with trk := q.1, cur := { P.cur with drv := q.2 } }
      refine ⟨as, P', o, fun B env s ws' hp hw => ?_⟩
      obtain ⟨w', t, rfl, h1, h2⟩ := hw.inv
      have := hr B env s w' hp h1
      rw [hP] at this
      simp only [Dfa.processNba]
      cases hs : s.trk.addDrivers s.cur.drv w'.sym ⟨w'.bounds, [⟨w'.node, w'.lsp⟩], false⟩ with
      | error g => rw [hs] at this; exact this.elim
      | ok p =>
        rw [hs] at this
        obtain ⟨t', d⟩ := p
        exact h B env { s with trk := t', cur := { s.cur with drv := d } } t
          ⟨hp.nodup, hp.len, hp.old, this.1, ⟨this.2, hp.cur.node, hp.cur.cond, hp.cur.reach⟩,
            hp.nba⟩ h2

theorem has_run {D : Design} (st : Stmt) : HasSim D (fun c s => s.runBlock c st) := by
  intro k P
  obtain ⟨as, k1, P1, o1, h1⟩ := has_exec st k P
  obtain ⟨bs, P2, o2, h2⟩ := sim_nba (D := D) k1 P1.nba P1
  refine ⟨as ++ bs, k1, P2, o1.append o2, fun B env s hp => ?_⟩
  exact post_seq (h1 B env s hp) (G := fun s1 => s1.processNba s1.nba) fun env' s' _ hp' =>
    h2 B env' s' s'.nba hp' hp'.nba

end Verif.Proofs

import Verif.Proofs.TaskSim
import Verif.Proofs.TasksEnd
import Verif.Proofs.SoundNet
import Verif.Props.Schedule

/-! Every run of the tasks in small steps does what some order of whole operations does. -/
namespace Verif.Proofs
open Verif.Model Verif.Spec Verif.Props

/-! ### Whole operations -/

theorem tasks_append {D : Design} (L M : List (Nat × BAct)) : ∀ (s : Bld) (envs : Nat → List Nat)
    (bufs : Nat → List Pending), s.tasks D envs bufs (L ++ M) =
      match s.tasks D envs bufs L with
      | .error f => .error f
      | .ok x => x.1.tasks D x.2.1 x.2.2 M := by
  induction L with
  | nil => intro s envs bufs; rfl
  | cons a L ih =>
    intro s envs bufs
    simp only [List.cons_append, Bld.tasks]
    cases ({ s with queue := bufs a.1 } : Bld).act D (envs a.1) a.2 with
    | error f => rfl
    | ok x => exact ih _ _ _

/-- All but the edges of two builders are the same. -/
structure SameRest (a b : Bld) : Prop where
  vars : a.vars = b.vars
  trk : a.trk = b.trk
  drv : a.drv = b.drv
  queue : a.queue = b.queue
  data : a.net.data = b.net.data
  nodes : a.net.g.nodes = b.net.g.nodes
  next : a.net.g.nextNode = b.net.g.nextNode

/-- Dependencies that could be added. -/
theorem deps_done {ds : List Dep} : ∀ {net net' : NetGraph}, Reachable net → net.addDependencies ds = some net' →
    Reachable net' ∧ net'.data = net.data ∧ net'.g.nodes = net.g.nodes ∧
      ∀ s t, annots net' s t = annFold net.data (annots net s t) (reqs ds s t) := by
  intro net net' hr h
  have hn : ∀ d ∈ ds, d.src ∈ net.g.nodes ∧ d.tgt ∈ net.g.nodes := by
    induction ds generalizing net with
    | nil => intro d hd; cases hd
    | cons d ds ih =>
      simp only [NetGraph.addDependencies] at h
      have hd : d.src ∈ net.g.nodes ∧ d.tgt ∈ net.g.nodes := by
        apply Classical.byContradiction
        intro hc
        rw [addDependency_none hc] at h
        cases h
      obtain ⟨n1, e1, r1, _, g1, _⟩ := addDependency_spec hr hd.1 hd.2
      rw [e1] at h
      intro d' hd'
      rcases List.mem_cons.1 hd' with rfl | hd'
      · exact hd
      · rw [← g1]; exact ih r1 h d' hd'
  obtain ⟨n', h1, h2, h3, h4, h5⟩ := addDependencies_spec hr hn
  rw [h1] at h
  cases h
  exact ⟨h2, h3, h4, h5⟩

theorem jobsApp_phases (vars : VarTab) (data : Nat → NodeData) (x y : Nat) (js : List TaskJob) (l : List EdgeAttr) :
    jobsApp vars data x y js l =
      (js.filterMap (jobPhase vars data)).foldl (fun l c => onPair data c false x y l) l := by
  unfold jobsApp
  induction js generalizing l with
  | nil => rfl
  | cons j js ih =>
    rw [List.foldl_cons, List.filterMap_cons, ih]
    cases jobPhase vars data j <;> rfl

theorem annFold_first (data : Nat → NodeData) (x y : Nat) (ds : List Dep) (l : List EdgeAttr) :
    annFold data l (reqs ds x y) = (ds.map TaskPhase.first).foldl (fun l c => onPair data c false x y l) l := by
  unfold annFold reqs
  induction ds generalizing l with
  | nil => rfl
  | cons d ds ih =>
    rw [List.map_cons, List.foldl_cons, ← ih]
    unfold onPair
    by_cases h : d.src = x ∧ d.tgt = y
    · obtain ⟨h1, h2⟩ := h
      rw [List.filter_cons_of_pos (by simp [h1, h2]), if_pos (by simp [addingAt, h1, h2])]
      rfl
    · rw [List.filter_cons_of_neg (by simpa using h), if_neg (by simpa [addingAt] using h)]

/-- What an operation and its first step have in common. -/
structure StartSim (D : Design) (q r r' : Bld) (env env' : List Nat) (a : BAct) (q' : Bld) (js : List TaskJob) : Prop where
  start : q.start D env a = .ok (q', env', js)
  rest : SameRest q' r'
  out : OutOk q'.net.g
  reach : Reachable r'.net
  pair : ∀ x y, pairE q'.net.g x y = pairE q.net.g x y
  ann : ∀ x y, annots q'.net x y = annots q.net x y
  jobs : ∀ x y, annots r'.net x y = jobsApp q'.vars q'.net.data x y js (annots r.net x y)
  vars : q'.vars = q.vars ∨ ∃ sym b i n, a = .reg sym b i ∧ n ∈ env ∧ q'.vars = q.vars.insert sym b n
  data : ∀ n, n < q.net.g.nextNode → q'.net.data n = q.net.data n
  nodes : ∀ n ∈ q.net.g.nodes, n ∈ q'.net.g.nodes
  env : ∀ n ∈ env', n ∈ env ∨ n ∈ q'.net.g.nodes

theorem deps_start {D : Design} {q r : Bld} {net' : NetGraph} {env : List Nat} {a : BAct} {ds : List Dep}
    {js : List TaskJob} (hr : Reachable r.net) (hs : SameRest q r) (ho : OutOk q.net.g)
    (h : r.net.addDependencies ds = some net') (hst : q.start D env a = .ok (q, env, js))
    (hj : js.filterMap (jobPhase q.vars q.net.data) = ds.map .first) :
    StartSim D q r { r with net := net' } env env a q js := by
  obtain ⟨h1, h2, h3, h4⟩ := deps_done hr h
  refine ⟨hst, ⟨hs.vars, hs.trk, hs.drv, hs.queue, hs.data.trans h2.symm, hs.nodes.trans h3.symm,
    hs.next.trans (deps_same h).1.symm⟩, ho, h1, fun _ _ => rfl, fun _ _ => rfl, fun x y => ?_, .inl rfl, fun _ _ => rfl,
    fun _ h => h, fun _ h => .inl h⟩
  rw [h4, annFold_first, jobsApp_phases, hj, hs.data]

/-- A step that adds no dependencies. -/
theorem same_start {D : Design} {q r q' r' : Bld} {env : List Nat} {a : BAct} (hr : Reachable r.net)
    (ho : OutOk q.net.g) (hst : q.start D env a = .ok (q', env, [])) (hs : SameRest q' r') (hq : q'.net = q.net)
    (hn : r'.net = r.net)
    (hv : q'.vars = q.vars ∨ ∃ sym b i n, a = .reg sym b i ∧ n ∈ env ∧ q'.vars = q.vars.insert sym b n) :
    StartSim D q r r' env env a q' [] :=
  ⟨hst, hs, by rw [hq]; exact ho, by rw [hn]; exact hr, by simp [hq], by simp [hq], by intro x y; rw [hn]; rfl, hv,
    by simp [hq], by simp [hq], fun _ h => .inl h⟩

theorem act_start {D : Design} {q r r' : Bld} {env env' : List Nat} {a : BAct} (hr : Reachable r.net)
    (hs : SameRest q r) (ho : OutOk q.net.g) (h : r.act D env a = .ok (r', env')) :
    ∃ q' js, StartSim D q r r' env env' a q' js := by
  cases a with
  | node d =>
    simp only [Bld.act] at h
    cases hc : r.net.call (.addNode d) with
    | none => rw [hc] at h; cases h
    | some net' =>
      rw [hc] at h
      cases h
      obtain ⟨n1, e1, r1, _, _, _, a1, _⟩ := newNode_spec hr d
      rw [hc] at e1
      cases e1
      obtain ⟨m, hm⟩ : ∃ m, q.net.call (.addNode d) = some m := ⟨_, rfl⟩
      have hout : ∀ x, (m.g.obj x).outE = (q.net.g.obj x).outE := by
        intro x
        cases hm
        show ((q.net.g.upd q.net.g.nextNode fun _ => {}).obj x).outE = _
        rw [upd_obj]
        split
        · rename_i hx
          rw [hx, ho.fresh _ (Nat.le_refl _)]
        · rfl
      have hok : OutOk m.g := by
        have hne : m.g.nextEdge = q.net.g.nextEdge := by cases hm; rfl
        have hnn : m.g.nextNode = q.net.g.nextNode + 1 := by cases hm; rfl
        refine ⟨?_, ?_, ?_, ?_, ?_⟩
        · intro x e; rw [hout, hne]; exact ho.src x e
        · intro x y e e'; rw [hout, hout]; exact ho.ids x y e e'
        · intro x; rw [hout]; exact ho.nodup x
        · intro x ix
          by_cases hx : x = q.net.g.nextNode
          · subst hx
            cases hm
            show ((q.net.g.upd q.net.g.nextNode fun _ => {}).obj q.net.g.nextNode).index = some ix → _
            rw [upd_obj, if_pos rfl]
            intro hh; cases hh
          · have : (m.g.obj x).index = (q.net.g.obj x).index := by
              cases hm
              show ((q.net.g.upd q.net.g.nextNode fun _ => {}).obj x).index = _
              rw [upd_obj, if_neg hx]
            rw [this, hout]
            exact ho.idx x ix
        · intro x hx
          rw [hout]
          exact ho.fresh x (by omega)
      have hp := pair_same hout
      refine ⟨{ q with net := m }, [], ?_, ⟨hs.vars, hs.trk, hs.drv, hs.queue, ?_, ?_, ?_⟩, hok, r1, hp, ?_, ?_, .inl rfl,
        ?_, ?_, ?_⟩
      · simp only [Bld.start, Bld.act, hm]
        rw [hs.next]
      · cases hm; cases hc
        show (fun n => if n = q.net.g.nextNode then d else q.net.data n) =
          fun n => if n = r.net.g.nextNode then d else r.net.data n
        rw [hs.next, hs.data]
      · cases hm; cases hc
        show q.net.g.nodes ++ [q.net.g.nextNode] = r.net.g.nodes ++ [r.net.g.nextNode]
        rw [hs.nodes, hs.next]
      · cases hm; cases hc
        show q.net.g.nextNode + 1 = r.net.g.nextNode + 1
        rw [hs.next]
      · intro x y
        exact annots_clear (net' := m) ho hp (by cases hm; rfl) x y
      · intro x y
        exact a1 x y
      · intro n hn
        cases hm
        show (if n = q.net.g.nextNode then d else q.net.data n) = _
        rw [if_neg (by omega)]
      · intro n hn
        cases hm
        exact List.mem_append_left _ hn
      · intro n hn
        rcases List.mem_append.1 hn with hn | hn
        · exact .inl hn
        · refine .inr ?_
          rw [List.mem_singleton.1 hn, ← hs.next]
          cases hm
          exact List.mem_append_right _ List.mem_cons_self
  | edge i j =>
    simp only [Bld.act] at h
    split at h
    · rename_i x y hx hy
      cases hc : r.net.call (.addEdge x y) with
      | none => rw [hc] at h; cases h
      | some net' =>
        rw [hc] at h
        cases h
        obtain ⟨m1, m2⟩ := call_addEdge_mem hc
        obtain ⟨n1, e1, r1, d1, g1, a1⟩ := addEdge_spec hr m1 m2
        rw [hc] at e1
        cases e1
        refine ⟨q, [.plain x y], ?_, ⟨hs.vars, hs.trk, hs.drv, hs.queue, hs.data.trans d1.symm, hs.nodes.trans g1.symm,
          hs.next.trans (call_edge_same hc).1.symm⟩, ho, r1, fun _ _ => rfl, fun _ _ => rfl, fun a b => ?_, .inl rfl,
          fun _ _ => rfl, fun _ h => h, fun _ h => .inl h⟩
        · simp only [Bld.start, hx, hy]
        · show annots net' a b = _
          rw [a1, jobsApp_cons]
          simp only [jobPhase, jobsApp, List.foldl_nil, onPair, addingAt, Option.some.injEq, Prod.mk.injEq]
          by_cases hab : x = a ∧ y = b
          · rw [if_pos hab]
            simp only [hab, true_and, phaseApp]
            cases annots r.net a b <;> simp
          · rw [if_neg hab, if_neg (fun hh => hab ⟨hh.1, hh.2.1⟩)]
    · cases h
  | dep d =>
    simp only [Bld.act] at h
    split at h
    · rename_i x y hx hy
      cases hc : r.net.addDependency ⟨x, y, d.sym, d.bounds, d.kind⟩ with
      | none => rw [hc] at h; cases h
      | some net' =>
        rw [hc] at h
        cases h
        refine ⟨q, [.dep ⟨x, y, d.sym, d.bounds, d.kind⟩], deps_start (ds := [⟨x, y, d.sym, d.bounds, d.kind⟩]) hr hs ho ?_ ?_ rfl⟩
        · simp only [NetGraph.addDependencies, hc]
        · simp only [Bld.start, hx, hy]
    · cases h
  | read sym b i k =>
    simp only [Bld.act] at h
    cases hc : ownNode env i with
    | none => rw [hc] at h; cases h
    | some n =>
      rw [hc] at h
      cases h
      refine ⟨{ q with queue := q.queue ++ [⟨sym, b, n, k⟩] }, [], same_start hr ho ?_
        ⟨hs.vars, hs.trk, hs.drv, ?_, hs.data, hs.nodes, hs.next⟩ rfl rfl (.inl rfl)⟩
      · simp only [Bld.start, Bld.act, hc]
      · show q.queue ++ _ = r.queue ++ _
        rw [hs.queue]
  | mread ref b i =>
    simp only [Bld.act] at h
    cases hc : env[i]? with
    | none => rw [hc] at h; cases h
    | some n =>
      rw [hc] at h
      simp only [Bld.addDeps] at h
      cases hd : r.net.addDependencies (modportDeps ⟨D, r.vars, none⟩ ref b n) with
      | none => rw [hd] at h; cases h
      | some net' =>
        rw [hd] at h
        cases h
        refine ⟨q, (D.iface ref.sym ref.lsp).map fun v => .outOf v.1 v.2 n (D.ref ref.sym) b, deps_start hr hs ho hd ?_ ?_⟩
        · simp only [Bld.start, hc]
        · rw [List.filterMap_map, modportDeps, List.map_filterMap, ← hs.vars]
          congr 1
          funext v
          simp only [Function.comp, jobPhase]
          cases q.vars.lookup v.1 v.2 <;> rfl
  | drive sym b l =>
    simp only [Bld.act] at h
    cases hc : driversOf env l with
    | none => rw [hc] at h; cases h
    | some l' =>
      rw [hc] at h
      simp only at h
      cases hd : r.trk.addDrivers r.drv sym ⟨b, l', true⟩ with
      | error f => rw [hd] at h; cases h
      | ok x =>
        rw [hd] at h
        cases h
        refine ⟨{ q with trk := x.1, drv := x.2 }, [], same_start hr ho ?_
          ⟨hs.vars, rfl, rfl, hs.queue, hs.data, hs.nodes, hs.next⟩ rfl rfl (.inl rfl)⟩
        simp only [Bld.start, Bld.act, hc, hs.trk, hs.drv, hd]
  | hook sym b l =>
    simp only [Bld.act] at h
    cases hc : driversOf env l with
    | none => rw [hc] at h; cases h
    | some l' =>
      rw [hc] at h
      simp only [Bld.addDeps] at h
      cases hd : r.net.addDependencies (hookupDeps D r sym b l') with
      | none => rw [hd] at h; cases h
      | some net' =>
        rw [hd] at h
        cases h
        have he : hookupDeps D q sym b l' = hookupDeps D r sym b l' := by
          unfold hookupDeps portNodeFor
          rw [hs.vars, hs.data]
        refine ⟨q, (hookupDeps D q sym b l').map .dep, deps_start hr hs ho hd ?_ ?_⟩
        · simp only [Bld.start, hc]
        · rw [he, List.filterMap_map]
          exact congrFun (List.filterMap_eq_map (f := TaskPhase.first)) _
  | extra sym b l =>
    simp only [Bld.act] at h
    cases hc : driversOf env l with
    | none => rw [hc] at h; cases h
    | some l' =>
      rw [hc] at h
      simp only [Bld.addDeps] at h
      cases hd : r.net.addDependencies (extraDeps D r sym b l') with
      | none => rw [hd] at h; cases h
      | some net' =>
        rw [hd] at h
        cases h
        refine ⟨q, _, deps_start hr hs ho hd (by simp only [Bld.start, hc]; rfl) ?_⟩
        rw [extraDeps, List.filterMap_flatMap, List.map_flatMap]
        congr 1
        funext d
        cases d.node with
        | none => rfl
        | some n =>
          dsimp only
          cases D.kind sym with
          | modportPort =>
            dsimp only
            rw [List.filterMap_map, List.map_filterMap, ← hs.vars]
            congr 1
            funext v
            simp only [Function.comp, jobPhase]
            cases q.vars.lookup v.1 v.2 <;> rfl
          | «variable» =>
            dsimp only
            rw [← hs.vars, ← hs.data]
            simp only [List.filterMap_cons, List.filterMap_nil, jobPhase]
            cases q.vars.lookup sym b <;> rfl
          | other => rfl
  | reg sym b i =>
    simp only [Bld.act] at h
    cases hc : env[i]? with
    | none => rw [hc] at h; cases h
    | some n =>
      rw [hc] at h
      cases h
      refine ⟨{ q with vars := q.vars.insert sym b n }, [], same_start hr ho ?_
        ⟨?_, hs.trk, hs.drv, hs.queue, hs.data, hs.nodes, hs.next⟩ rfl rfl (.inr ⟨sym, b, i, n, rfl, List.mem_of_getElem? hc, rfl⟩)⟩
      · simp only [Bld.start, Bld.act, hc]
      · show q.vars.insert sym b n = r.vars.insert sym b n
        rw [hs.vars]
  | fault f => cases h

/-! ### The two machines together -/

/-- The job looks up ranges of which no other task makes a register. -/
def JobFar (as : Nat → List BAct) (u : Nat) : TaskJob → Prop
  | .into _ sym c _ _ _ => ∀ w, w ≠ u → ∀ b i, BAct.reg sym b i ∈ as w → BitsDiffer c b
  | .outOf sym c _ _ _ => ∀ w, w ≠ u → ∀ b i, BAct.reg sym b i ∈ as w → BitsDiffer c b
  | _ => True

theorem start_far {D : Design} {s q q' : Bld} {as : Nat → List BAct} (hsep : Separate D s as) {u : Nat} {a : BAct}
    (ha : a ∈ as u) {env env' : List Nat} {js : List TaskJob} (h : q.start D env a = .ok (q', env', js)) :
    ∀ j ∈ js, JobFar as u j := by
  have hact : (∀ x, q.act D env a = .ok x → q.start D env a = .ok (x.1, x.2, [])) →
      (∀ f, q.act D env a = .error f → q.start D env a = .error f) → js = [] := by
    intro h1 h2
    cases hx : q.act D env a with
    | error f => rw [h2 f hx] at h; cases h
    | ok y => rw [h1 y hx] at h; cases h; rfl
  cases a with
  | edge i k =>
    simp only [Bld.start] at h
    split at h
    · cases h
      intro j hj
      rw [List.mem_singleton.1 hj]
      trivial
    · cases h
  | dep d =>
    simp only [Bld.start] at h
    split at h
    · cases h
      intro j hj
      rw [List.mem_singleton.1 hj]
      trivial
    · cases h
  | mread r b i =>
    simp only [Bld.start] at h
    split at h
    · cases h
    · cases h
      intro j hj
      obtain ⟨v, hv, rfl⟩ := List.mem_map.1 hj
      intro w _ b' i' hr
      exact (hsep.reads u r b i ha v hv w b' i' hr).elim
  | hook sym b l =>
    simp only [Bld.start] at h
    split at h
    · cases h
    · cases h
      intro j hj
      obtain ⟨v, hv, rfl⟩ := List.mem_map.1 hj
      trivial
  | extra sym b l =>
    simp only [Bld.start] at h
    split at h
    · cases h
    · rename_i l' hl
      cases h
      intro j hj
      obtain ⟨d, hd, hj⟩ := List.mem_flatMap.1 hj
      cases hn : d.node with
      | none => rw [hn] at hj; cases hj
      | some n =>
        rw [hn] at hj
        dsimp only at hj
        cases hk : D.kind sym with
        | modportPort =>
          rw [hk] at hj
          obtain ⟨v, hv, rfl⟩ := List.mem_map.1 hj
          obtain ⟨d0, h1, h2, _⟩ := driversOf_mem hl d hd n hn
          rw [← h2] at hv
          intro w _ b' i' hr
          exact (hsep.writes u sym b l ha hk d0 h1 v hv w b' i' hr).elim
        | «variable» =>
          rw [hk] at hj
          rw [List.mem_singleton.1 hj]
          intro w hw b' i' hr
          exact hsep.vars u sym b l ha hk w b' i' hw hr
        | other => rw [hk] at hj; cases hj
  | node d =>
    obtain rfl := hact (fun x hx => by simp only [Bld.start, hx]) (fun f hx => by simp only [Bld.start, hx])
    intro j hj
    cases hj
  | read sym b i k =>
    obtain rfl := hact (fun x hx => by simp only [Bld.start, hx]) (fun f hx => by simp only [Bld.start, hx])
    intro j hj
    cases hj
  | drive sym b l =>
    obtain rfl := hact (fun x hx => by simp only [Bld.start, hx]) (fun f hx => by simp only [Bld.start, hx])
    intro j hj
    cases hj
  | reg sym b i =>
    obtain rfl := hact (fun x hx => by simp only [Bld.start, hx]) (fun f hx => by simp only [Bld.start, hx])
    intro j hj
    cases hj
  | fault f =>
    obtain rfl := hact (fun x hx => by simp only [Bld.start, hx]) (fun f hx => by simp only [Bld.start, hx])
    intro j hj
    cases hj

/-- The small steps so far, and the operations `L` they stand for, which would have led to `r`. -/
structure Coupled (D : Design) (as : Nat → List BAct) (s : Bld) (p : TaskSt) (L : List (Nat × BAct)) (r : Bld) :
    Prop where
  out : OutOk p.b.net.g
  edge : ∀ u, EdgeOk p u
  far : ∀ u, ∀ j ∈ p.jobs u, JobFar as u j
  ops : ∀ u, opsOf L u ++ p.ops u = as u
  failed : ∀ u, p.failed u = none
  run : s.tasks D (fun _ => []) (fun _ => []) L = .ok (r, p.envs, p.bufs)
  rest : SameRest p.b r
  sim : EdgeSim p r.net
  reach : Reachable r.net
  sorted : VarSorted p.b.vars
  envs : ∀ u, ∀ n ∈ p.envs u, n ∈ p.b.net.g.nodes
  known : ∀ sym, ∀ e ∈ p.b.vars sym, e.val ∈ p.b.net.g.nodes

theorem allowed_lt {N : Nat} {F : TaskFrame} (hF : FrameOk N F) {u x y : Nat} (h : F.Allowed N u x y) :
    x < F.next ∧ y < F.next := by
  have hp : ∀ n, F.Priv u n → n < F.next := fun n hn => (hF.envs u n hn.1).2
  have hv : ∀ n, F.Vis N n → n < F.next := by
    rintro n (hn | hn)
    · have := hF.next; omega
    · exact hn.1
  rcases h with ⟨h1, h2 | h2⟩ | ⟨h1, h2⟩ | ⟨h1, h2, h3⟩
  · exact ⟨hp _ h1, hp _ h2⟩
  · exact ⟨hp _ h1, hv _ h2⟩
  · exact ⟨hv _ h1, hp _ h2⟩
  · exact ⟨(hF.envs u x h1).2, hv _ (.inl h3)⟩

variable {D : Design} {N K : Nat} {p p' : TaskSt} {u : Nat}

theorem jobPhase_allowed (h : TaskInv D N K p) {j : TaskJob} (hj : JobOk D N (frameOf p) u j) {c : TaskPhase}
    (hc : jobPhase p.b.vars p.b.net.data j = some c) {x y : Nat} (ha : addingAt c = some (x, y)) :
    (frameOf p).Allowed N u x y := by
  cases j with
  | plain a b => cases hc; cases ha; exact hj
  | dep d => cases hc; cases ha; exact hj
  | into a sym c ref b own =>
    simp only [jobPhase] at hc
    cases hv : p.b.vars.lookup sym c with
    | none => rw [hv] at hc; cases hc
    | some vn =>
      rw [hv] at hc
      cases hc
      cases ha
      obtain ⟨e, he, rfl⟩ := entryLookup_mem hv
      exact .inl ⟨hj, .inr (h.vars sym e he)⟩
  | outOf sym c b ref d =>
    simp only [jobPhase] at hc
    cases hv : p.b.vars.lookup sym c with
    | none => rw [hv] at hc; cases hc
    | some vn =>
      rw [hv] at hc
      cases hc
      cases ha
      obtain ⟨e, he, rfl⟩ := entryLookup_mem hv
      exact .inr (.inl ⟨h.vars sym e he, hj⟩)

theorem busy_allowed (h : TaskInv D N K p) {x y : Nat} (hb : Busy p u x y) : (frameOf p).Allowed N u x y := by
  rcases hb with hb | ⟨j, hj, c, hc, ha⟩
  · exact h.cur u x y hb
  · exact jobPhase_allowed h (h.jobs u j hj) hc ha

theorem busy_one (h : TaskInv D N K p) (u v x y : Nat) (hu : Busy p u x y) (hv : Busy p v x y) : u = v :=
  allowed_one h.frame (busy_allowed h hu) (busy_allowed h hv)

theorem onPair_data {data data' : Nat → NodeData} {c : TaskPhase} {x y : Nat}
    (h : addingAt c = some (x, y) → data' x = data x) (b : Bool) (l : List EdgeAttr) :
    onPair data' c b x y l = onPair data c b x y l := by
  unfold onPair
  by_cases hc : addingAt c = some (x, y)
  · rw [if_pos hc, if_pos hc]
    have h' := h hc
    cases c with
    | free => rfl
    | edge a b => rfl
    | first d => cases hc; simp only [phaseApp, h']
    | second d => cases hc; simp only [phaseApp, h']
  · rw [if_neg hc, if_neg hc]

theorem filterMap_same {α β : Type} {f g : α → Option β} {l : List α} (h : ∀ a ∈ l, f a = g a) :
    l.filterMap f = l.filterMap g := by
  induction l with
  | nil => rfl
  | cons a l ih =>
    rw [List.filterMap_cons, List.filterMap_cons, h a List.mem_cons_self,
      ih fun a' ha' => h a' (List.mem_cons_of_mem _ ha')]

theorem foldl_same {α β : Type} {f g : β → α → β} {l : List α} (h : ∀ a ∈ l, ∀ b, f b a = g b a) (b : β) :
    l.foldl f b = l.foldl g b := by
  induction l generalizing b with
  | nil => rfl
  | cons a l ih =>
    rw [List.foldl_cons, List.foldl_cons, h a List.mem_cons_self]
    exact ih (fun a' ha' => h a' (List.mem_cons_of_mem _ ha')) _

/-- A task that another one's step does not touch. -/
theorem todo_keep {v : Nat} (hc : p'.cur v = p.cur v) (ht : p'.th v = p.th v) (hj : p'.jobs v = p.jobs v)
    (hp : ∀ j ∈ p.jobs v, jobPhase p'.b.vars p'.b.net.data j = jobPhase p.b.vars p.b.net.data j)
    (hd : ∀ x y, Busy p v x y → p'.b.net.data x = p.b.net.data x) (x y : Nat) :
    (Busy p' v x y ↔ Busy p v x y) ∧ ∀ l, todoApp p' v x y l = todoApp p v x y l := by
  refine ⟨?_, fun l => ?_⟩
  · unfold Busy
    rw [hc, hj]
    constructor
    · rintro (h | ⟨j, h1, c, h2, h3⟩)
      · exact .inl h
      · exact .inr ⟨j, h1, c, by rw [← hp j h1]; exact h2, h3⟩
    · rintro (h | ⟨j, h1, c, h2, h3⟩)
      · exact .inl h
      · exact .inr ⟨j, h1, c, by rw [hp j h1]; exact h2, h3⟩
  · unfold todoApp
    rw [jobsApp_phases, jobsApp_phases, hc, ht, hj, onPair_data (fun h => hd x y (.inl h)), filterMap_same hp]
    refine foldl_same ?_ _
    intro c hcm l
    obtain ⟨j, h1, h2⟩ := List.mem_filterMap.1 hcm
    exact onPair_data (fun h => hd x y (.inr ⟨j, h1, c, h2, h⟩)) _ _

/-- A step inside an operation stands for nothing. -/
theorem Coupled.inner {as : Nat → List BAct} {s r : Bld} {L : List (Nat × BAct)} (h : Coupled D as s p L r)
    (hi : TaskInv D N K p) (hr : StepRes p p' u) : Coupled D as s p' L r := by
  refine ⟨hr.out, ?_, ?_, by rw [hr.ops]; exact h.ops, by rw [hr.failed]; exact h.failed, by rw [hr.envs, hr.bufs]; exact h.run,
    ⟨hr.vars.trans h.rest.vars, hr.trk.trans h.rest.trk, hr.drv.trans h.rest.drv, hr.queue.trans h.rest.queue,
      hr.data.trans h.rest.data, hr.nodes.trans h.rest.nodes, hr.next.trans h.rest.next⟩, ?_, h.reach,
    by rw [hr.vars]; exact h.sorted, by rw [hr.envs, hr.nodes]; exact h.envs, by rw [hr.vars, hr.nodes]; exact h.known⟩
  · intro v
    by_cases hv : v = u
    · rw [hv]; exact hr.edge
    · obtain ⟨h1, h2, _, h4⟩ := hr.keep v hv
      intro hne
      rw [h1] at hne ⊢
      rw [h2, h4]
      refine (h.edge v hne).same hne fun x y hxy => (hr.others x y fun hu => hv ?_).1
      exact allowed_one hi.frame (hi.cur v x y hxy) (hi.cur u x y hu)
  · intro v j hj
    by_cases hv : v = u
    · subst hv; exact h.far v j (hr.jobs j hj)
    · rw [(hr.keep v hv).2.2.1] at hj; exact h.far v j hj
  · refine edgeSim_step (w := u) h.sim (busy_one hi) ?_ ?_ ?_
    · intro v hv x y
      obtain ⟨h1, h2, h3, _⟩ := hr.keep v hv
      exact todo_keep h1 h2 h3 (fun j _ => by rw [hr.vars, hr.data]) (fun _ _ _ => by rw [hr.data]) x y
    · intro x y hh
      rw [hr.todo, hh]
    · intro x y hb _
      exact ⟨(hr.others x y fun hh => hb (.inl hh)).2, rfl⟩

theorem opsOf_one (w : Nat) (a : BAct) (v : Nat) : opsOf [(w, a)] v = if v = w then [a] else [] := by
  rw [opsOf_cons]
  rfl

/-- The first step of an operation stands for the operation. -/
theorem Coupled.take {as : Nat → List BAct} {s r : Bld} {L : List (Nat × BAct)} (h : Coupled D as s p L r)
    (hi : TaskInv D N K p) (hsep : Separate D s as) (hc : p.cur u = .free) (hj : p.jobs u = []) {a : BAct}
    {rest : List BAct} (ho : p.ops u = a :: rest) {r1 : Bld} {env1 : List Nat}
    (hact : ({ r with queue := p.bufs u } : Bld).act D (p.envs u) a = .ok (r1, env1)) :
    ∃ r', Coupled D as s (p.take D u a rest) (L ++ [(u, a)]) r' := by
  have hops : ∀ w, opsOf (L ++ [(u, a)]) w ++ setAt p.ops u rest w = as w := by
    intro w
    rw [opsOf_append, opsOf_one, ← h.ops w]
    by_cases hw : w = u
    · subst hw
      rw [if_pos rfl, setAt_same, ho]
      simp
    · rw [if_neg hw, setAt_ne _ _ hw, List.append_nil]
  have hmem : a ∈ as u := by rw [← h.ops u, ho]; simp
  obtain ⟨q', js, hst⟩ := act_start (q := { p.b with queue := p.bufs u }) (r := { r with queue := p.bufs u }) h.reach
    ⟨h.rest.vars, h.rest.trk, h.rest.drv, rfl, h.rest.data, h.rest.nodes, h.rest.next⟩ h.out hact
  have htake : p.take D u a rest = { p with
      b := { q' with queue := p.b.queue }
      envs := setAt p.envs u env1
      bufs := setAt p.bufs u q'.queue
      ops := setAt p.ops u rest
      jobs := setAt p.jobs u js } := by
    unfold TaskSt.take
    rw [hst.start]
  rw [htake]
  have hlook : ∀ v, v ≠ u → ∀ sym c, (∀ w, w ≠ v → ∀ b i, BAct.reg sym b i ∈ as w → BitsDiffer c b) →
      q'.vars.lookup sym c = p.b.vars.lookup sym c := by
    intro v hv sym c hfar
    rcases hst.vars with hvar | ⟨sym0, b0, i0, n0, hreg, hn0, hvar⟩
    · rw [hvar]
    · rw [hvar, lookup_cell, lookup_cell, varCell_insert h.sorted, if_neg, List.append_nil]
      rintro ⟨rfl, he⟩
      exact asc_ne (hfar u (fun e => hv e.symm) b0 i0 (by rw [← hreg]; exact hmem)) he
  have hdata : ∀ n, n < (frameOf p).next → q'.net.data n = p.b.net.data n := hst.data
  have hphase : ∀ v, v ≠ u → ∀ j ∈ p.jobs v, jobPhase q'.vars q'.net.data j = jobPhase p.b.vars p.b.net.data j := by
    intro v hv j hjm
    have hfar := h.far v j hjm
    cases j with
    | plain x y => rfl
    | dep d => rfl
    | into x sym c ref b own =>
      simp only [jobPhase]
      rw [hlook v hv sym c hfar]
      cases hl : p.b.vars.lookup sym c with
      | none => rfl
      | some vn =>
        obtain ⟨e, he, rfl⟩ := entryLookup_mem hl
        have hlt : e.val < (frameOf p).next := by
          rcases hi.vars sym e he with h1 | h1
          · exact Nat.lt_of_lt_of_le h1 hi.frame.next
          · exact h1.1
        simp only [Option.map_some]
        rw [hdata _ hlt]
    | outOf sym c y ref b =>
      simp only [jobPhase]
      rw [hlook v hv sym c hfar]
  refine ⟨{ r1 with queue := r.queue }, ⟨hst.out, ?_, ?_, hops, h.failed, ?_, ?_, ?_, hst.reach, ?_, ?_, ?_⟩⟩
  · intro v hne
    exact (h.edge v hne).same hne fun x y _ => hst.pair x y
  · intro v j
    show j ∈ setAt p.jobs u js v → _
    by_cases hv : v = u
    · subst hv
      rw [setAt_same]
      exact start_far hsep hmem hst.start j
    · rw [setAt_ne _ _ hv]
      exact h.far v j
  · rw [tasks_append, h.run]
    simp only [Bld.tasks]
    rw [hact]
    dsimp only
    rw [← hst.rest.queue]
    rfl
  · exact ⟨hst.rest.vars, hst.rest.trk, hst.rest.drv, h.rest.queue, hst.rest.data, hst.rest.nodes, hst.rest.next⟩
  · refine edgeSim_step (w := u) h.sim (busy_one hi) ?_ ?_ ?_
    · intro v hv x y
      refine todo_keep (p := p) (by rfl) (by rfl) (by exact setAt_ne _ _ hv) (by exact hphase v hv) ?_ x y
      intro x y hb
      exact hdata x (allowed_lt hi.frame (busy_allowed hi hb)).1
    · intro x y hh
      have h0 : annots r.net x y = annots p.b.net x y := by
        rw [hh]
        unfold todoApp
        rw [hc, hj]
        rfl
      show annots r1.net x y = jobsApp q'.vars q'.net.data x y (setAt p.jobs u js u)
        (onPair q'.net.data (p.cur u) (pushed (p.th u)) x y (annots q'.net x y))
      rw [setAt_same, hc, onPair_free, hst.ann, hst.jobs]
      show _ = jobsApp q'.vars q'.net.data x y js (annots p.b.net x y)
      rw [← h0]
    · intro x y _ hb
      refine ⟨hst.ann x y, ?_⟩
      show annots r1.net x y = annots r.net x y
      rw [hst.jobs]
      refine jobsApp_skip ?_ _
      intro j hjm c hcc hadd
      refine hb (.inr ⟨j, ?_, c, hcc, hadd⟩)
      show j ∈ setAt p.jobs u js u
      rw [setAt_same]
      exact hjm
  · show VarSorted q'.vars
    rcases hst.vars with hvar | ⟨sym0, b0, i0, n0, hreg, hn0, hvar⟩
    · rw [hvar]; exact h.sorted
    · rw [hvar]; exact varSorted_insert h.sorted _ _ _
  · intro v n
    show n ∈ setAt p.envs u env1 v → n ∈ q'.net.g.nodes
    by_cases hv : v = u
    · subst hv
      rw [setAt_same]
      intro hn
      rcases hst.env n hn with hn | hn
      · exact hst.nodes n (h.envs v n hn)
      · exact hn
    · rw [setAt_ne _ _ hv]
      exact fun hn => hst.nodes n (h.envs v n hn)
  · intro sym e
    show e ∈ q'.vars sym → e.val ∈ q'.net.g.nodes
    rcases hst.vars with hvar | ⟨sym0, b0, i0, n0, hreg, hn0, hvar⟩
    · rw [hvar]; exact fun he => hst.nodes _ (h.known sym e he)
    · rw [hvar]
      unfold VarTab.insert
      split
      · intro he
        rcases entryInsert_mem he with he | he
        · rw [he]; exact hst.nodes _ (h.envs u n0 hn0)
        · exact hst.nodes _ (h.known _ e he)
      · exact fun he => hst.nodes _ (h.known sym e he)


/-- The operation goes wrong at its first step or not at all. -/
theorem act_fail {q r : Bld} {env : List Nat} {a : BAct} {f : Fault} (hr : Reachable r.net) (hs : SameRest q r)
    (he : ∀ n ∈ env, n ∈ r.net.g.nodes) (hv : ∀ sym, ∀ e ∈ r.vars sym, e.val ∈ r.net.g.nodes)
    (h : r.act D env a = .error f) : ∃ f', q.start D env a = .error f' := by
  have hlook : ∀ {sym c n}, r.vars.lookup sym c = some n → n ∈ r.net.g.nodes := by
    intro sym c n hl
    obtain ⟨e, h1, rfl⟩ := entryLookup_mem hl
    exact hv sym e h1
  have hdeps : ∀ ds, (∀ d ∈ ds, d.src ∈ r.net.g.nodes ∧ d.tgt ∈ r.net.g.nodes) → ∃ r', r.addDeps ds = .ok r' := by
    intro ds hd
    obtain ⟨net', h1, _⟩ := addDeps_spec hr hd
    exact ⟨_, h1⟩
  have hdrv : ∀ {l l'}, driversOf env l = some l' → ∀ d ∈ l', ∀ n, d.node = some n → n ∈ r.net.g.nodes := by
    intro l l' hl d hd n hn
    obtain ⟨_, _, _, i, _, hi⟩ := driversOf_mem hl d hd n hn
    exact he n (List.mem_of_getElem? hi)
  cases a with
  | node d =>
    simp only [Bld.act] at h
    cases h
  | edge i j =>
    simp only [Bld.act] at h
    split at h
    · rename_i x y hx hy
      rw [call_addEdge (he x (List.mem_of_getElem? hx)) (he y (List.mem_of_getElem? hy))] at h
      cases h
    · rename_i hn
      refine ⟨.oob, ?_⟩
      simp only [Bld.start]
  | dep d =>
    simp only [Bld.act] at h
    split at h
    · rename_i x y hx hy
      obtain ⟨n1, e1, _⟩ := addDependency_spec hr (d := ⟨x, y, d.sym, d.bounds, d.kind⟩)
        (he x (List.mem_of_getElem? hx)) (he y (List.mem_of_getElem? hy))
      rw [e1] at h
      cases h
    · refine ⟨.oob, ?_⟩
      simp only [Bld.start]
  | read sym b i k =>
    simp only [Bld.act] at h
    cases hc : ownNode env i with
    | none => exact ⟨.oob, by simp only [Bld.start, Bld.act, hc]⟩
    | some n => rw [hc] at h; cases h
  | mread ref b i =>
    simp only [Bld.act] at h
    cases hc : env[i]? with
    | none => exact ⟨.oob, by simp only [Bld.start, hc]⟩
    | some n =>
      rw [hc] at h
      obtain ⟨r', h1⟩ := hdeps (modportDeps ⟨D, r.vars, none⟩ ref b n) (by
        intro d hd
        obtain ⟨v, _, h2⟩ := List.mem_filterMap.1 hd
        obtain ⟨vn, h3, rfl⟩ := Option.map_eq_some_iff.1 h2
        exact ⟨hlook h3, he n (List.mem_of_getElem? hc)⟩)
      simp only [h1] at h
      cases h
  | drive sym b l =>
    simp only [Bld.act] at h
    cases hc : driversOf env l with
    | none => exact ⟨.oob, by simp only [Bld.start, Bld.act, hc]⟩
    | some l' =>
      rw [hc] at h
      cases hd : r.trk.addDrivers r.drv sym ⟨b, l', true⟩ with
      | error f' => exact ⟨f', by simp only [Bld.start, Bld.act, hc, hs.trk, hs.drv, hd]⟩
      | ok x => simp only [hd] at h; cases h
  | hook sym b l =>
    simp only [Bld.act] at h
    cases hc : driversOf env l with
    | none => exact ⟨.oob, by simp only [Bld.start, hc]⟩
    | some l' =>
      rw [hc] at h
      obtain ⟨r', h1⟩ := hdeps (hookupDeps D r sym b l') (by
        intro d hd
        unfold hookupDeps at hd
        split at hd
        · cases hd
        · split at hd
          · cases hd
          · rename_i pn hpn
            obtain ⟨dr, h2, h3⟩ := List.mem_filterMap.1 hd
            obtain ⟨n, h4, rfl⟩ := Option.map_eq_some_iff.1 h3
            obtain ⟨e, h5, rfl⟩ := portNode_mem hpn
            exact ⟨hdrv hc dr h2 n h4, hv _ e h5⟩)
      simp only [h1] at h
      cases h
  | extra sym b l =>
    simp only [Bld.act] at h
    cases hc : driversOf env l with
    | none => exact ⟨.oob, by simp only [Bld.start, hc]⟩
    | some l' =>
      rw [hc] at h
      obtain ⟨r', h1⟩ := hdeps (extraDeps D r sym b l') (by
        intro d hd
        obtain ⟨dr, h2, h3⟩ := List.mem_flatMap.1 hd
        cases hn : dr.node with
        | none => rw [hn] at h3; cases h3
        | some n =>
          have hmem := hdrv hc dr h2 n hn
          rw [hn] at h3
          dsimp only at h3
          split at h3
          · obtain ⟨v, _, h4⟩ := List.mem_filterMap.1 h3
            obtain ⟨vn, h5, rfl⟩ := Option.map_eq_some_iff.1 h4
            exact ⟨hmem, hlook h5⟩
          · split at h3
            · cases h3
            · rename_i vn h5
              rw [List.mem_singleton.1 h3]
              exact ⟨hmem, hlook h5⟩
          · cases h3)
      simp only [h1] at h
      cases h
  | reg sym b i =>
    simp only [Bld.act] at h
    cases hc : env[i]? with
    | none => exact ⟨.oob, by simp only [Bld.start, Bld.act, hc]⟩
    | some n => rw [hc] at h; cases h
  | fault f => exact ⟨f, rfl⟩

/-- One step: the machines stay together, or an operation goes wrong in both. -/
theorem Coupled.step {as : Nat → List BAct} {s r : Bld} {L : List (Nat × BAct)} (h : Coupled D as s p L r)
    (hi : TaskInv D N K p) (hsep : Separate D s as) (hs : p.step D u = some p') :
    (∃ L' r', Coupled D as s p' L' r') ∨ ((∃ v, p'.failed v ≠ none) ∧ ∃ M, (∀ w, opsOf M w <+: as w) ∧
      ∃ f, s.tasks D (fun _ => []) (fun _ => []) M = .error f) := by
  unfold TaskSt.step at hs
  split at hs
  · rename_i hc
    split at hs
    · rename_i j js hj
      cases hs
      exact .inl ⟨L, r, h.inner hi (begin_res h.out hc hj)⟩
    · rename_i hj
      split at hs
      · cases hs
      · rename_i a rest ho
        cases hs
        cases hact : ({ r with queue := p.bufs u } : Bld).act D (p.envs u) a with
        | ok z =>
          obtain ⟨r', h'⟩ := h.take hi hsep hc hj ho (r1 := z.1) (env1 := z.2) hact
          exact .inl ⟨_, r', h'⟩
        | error f =>
          refine .inr ⟨⟨u, ?_⟩, L ++ [(u, a)], ?_, f, ?_⟩
          · obtain ⟨f', hf⟩ := act_fail (D := D) (q := { p.b with queue := p.bufs u }) (r := { r with queue := p.bufs u })
              h.reach ⟨h.rest.vars, h.rest.trk, h.rest.drv, rfl, h.rest.data, h.rest.nodes, h.rest.next⟩
              (by show ∀ n ∈ _, n ∈ r.net.g.nodes; rw [← h.rest.nodes]; exact h.envs u)
              (by
                show ∀ sym, ∀ e ∈ r.vars sym, e.val ∈ r.net.g.nodes
                rw [← h.rest.nodes, ← h.rest.vars]
                exact h.known) hact
            unfold TaskSt.take
            rw [hf]
            show setAt p.failed u (some f') u ≠ none
            rw [setAt_same]
            simp
          · intro w
            rw [opsOf_append, opsOf_one, ← h.ops w]
            by_cases hw : w = u
            · subst hw
              rw [if_pos rfl, ho]
              exact ⟨rest, by simp⟩
            · rw [if_neg hw, List.append_nil]
              exact List.prefix_append _ _
          · rw [tasks_append, h.run]
            simp only [Bld.tasks]
            rw [hact]
  · rename_i hc
    have hc : p.cur u ≠ .free := fun e => hc e
    split at hs
    · rename_i ht
      cases hs
      exact .inl ⟨L, r, h.inner hi (back_res h.out hc ht (h.edge u))⟩
    · rename_i ht
      exact .inl ⟨L, r, h.inner hi (lock_res h.out hc
        (fun x y hxy => (allowed_lt hi.frame (hi.cur u x y hxy)).1) ht (h.edge u) hs)⟩

/-- A fault is not forgotten. -/
theorem failed_step (hs : p.step D u = some p') {v : Nat} (h : p.failed v ≠ none) : p'.failed v ≠ none := by
  unfold TaskSt.step at hs
  split at hs
  · split at hs
    · cases hs
      rw [begin_eq]
      split
      · exact h
      · exact h
    · split at hs
      · cases hs
      · cases hs
        unfold TaskSt.take
        split
        · show setAt p.failed u _ v ≠ none
          unfold setAt
          split
          · simp
          · exact h
        · exact h
  · split at hs
    · cases hs
      unfold TaskSt.back
      split
      · dsimp only
        split <;> exact h
      · exact h
      · exact h
    · unfold TaskSt.lockStep at hs
      split at hs
      · cases hs
      · cases hs; exact h

theorem failed_run (l : List Nat) : ∀ {p p' : TaskSt}, p.run D l = some p' → ∀ {v : Nat}, p.failed v ≠ none →
    p'.failed v ≠ none := by
  induction l with
  | nil => intro p p' hs v h; cases hs; exact h
  | cons u l ih =>
    intro p p' hs v h
    simp only [TaskSt.run] at hs
    split at hs
    · cases hs
    · rename_i q hq
      exact ih hs (failed_step hq h)

theorem Coupled.runs {as : Nat → List BAct} {s : Bld} (hsep : Separate D s as) (l : List Nat) :
    ∀ {p p' : TaskSt} {L : List (Nat × BAct)} {r : Bld}, Coupled D as s p L r → TaskInv D N K p →
      p.run D l = some p' → (∃ L' r', Coupled D as s p' L' r') ∨ ((∃ v, p'.failed v ≠ none) ∧
        ∃ M, (∀ w, opsOf M w <+: as w) ∧ ∃ f, s.tasks D (fun _ => []) (fun _ => []) M = .error f) := by
  induction l with
  | nil => intro p p' L r h _ hs; cases hs; exact .inl ⟨L, r, h⟩
  | cons u l ih =>
    intro p p' L r h hi hs
    simp only [TaskSt.run] at hs
    split at hs
    · cases hs
    · rename_i q hq
      rcases h.step hi hsep hq with ⟨L', r', h'⟩ | ⟨⟨v, hv⟩, hM⟩
      · exact ih h' (taskInv_step hi hq) hs
      · exact .inr ⟨⟨v, failed_run l hs hv⟩, hM⟩

theorem coupled_init {as : Nat → List BAct} {s : Bld} {hist : List (Nat × Rec)} (hs : Begun s hist) :
    Coupled D as s (.init s as) [] s :=
  ⟨OutOk.of_reach hs.reach, (fun u hne => (hne rfl).elim), (fun u j hj => by cases hj), fun u => rfl, fun _ => rfl, rfl,
    ⟨rfl, rfl, rfl, rfl, rfl, rfl, rfl⟩, fun u x y _ => rfl, hs.reach, hs.sorted, (fun u n hn => by cases hn), hs.vars⟩

/-- At the end the edges are those of the operations. -/
theorem Coupled.done {as : Nat → List BAct} {s r : Bld} {L : List (Nat × BAct)} (h : Coupled D as s p L r)
    (hd : TasksDone p) (x y : Nat) : annots p.b.net x y = annots r.net x y := by
  have hb : ∀ v, ¬ Busy p v x y := by
    rintro v (hb | ⟨j, hj, _⟩)
    · rw [(hd v).1] at hb; cases hb
    · rw [(hd v).2.1] at hj; cases hj
  rw [h.sim 0 x y fun v _ => hb v, todo_rest (hb 0)]

end Verif.Proofs

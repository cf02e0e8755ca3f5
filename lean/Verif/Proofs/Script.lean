import Verif.Proofs.ScriptSim
import Verif.Spec.Script

/-!
Every block is a list of operations.
-/
namespace Verif.Proofs
open Verif.Model Verif.Spec

/-! ### The driven ranges -/

/-- Corresponding driven ranges. -/
def DrivenR (env : List Nat) (w w' : Driven) : Prop :=
  w'.sym = w.sym ∧ w'.bounds = w.bounds ∧ driversOf env w.drivers = some w'.drivers

theorem mapM_rel {α β γ : Type} {R : β → γ → Prop} {f : α → Except Fault β} {g : α → Except Fault γ}
    (h : ∀ a, ExR R (f a) (g a)) (l : List α) : ExR (Rw R) (l.mapM f) (l.mapM g) := by
  induction l with
  | nil => exact Rw.nil
  | cons a l ih =>
    rw [List.mapM_cons, List.mapM_cons]
    refine (h a).bind fun x y hxy => ?_
    exact ih.bind fun xs ys hl => Rw.cons hxy hl

theorem drivenOf_rel {env : List Nat} {drv drv' : List DMap} (h : Rw (MapR env) drv drv')
    (l : List (Nat × Nat)) : ExR (Rw (DrivenR env)) (drivenOf drv l) (drivenOf drv' l) := by
  induction l with
  | nil => exact Rw.nil
  | cons p l ih =>
    obtain ⟨sym, i⟩ := p
    simp only [drivenOf]
    cases h1 : drivenOf drv l with
    | error f =>
      cases h2 : drivenOf drv' l with
      | error g => rw [h1, h2] at ih; exact ih
      | ok ws => rw [h1, h2] at ih; exact ih.elim
    | ok ws =>
      cases h2 : drivenOf drv' l with
      | error g => rw [h1, h2] at ih; exact ih.elim
      | ok ws' =>
        rw [h1, h2] at ih
        dsimp only
        rcases h.get i with ⟨e1, e2⟩ | ⟨m, m', e1, e2, hm⟩
        · rw [e1, e2]; exact ih
        · rw [e1, e2]
          dsimp only
          rw [hm.ivls]
          have key := mapM_rel (R := DrivenR env) (f := fun e : Ivl Nat => do
              let l ← m.getList e.val
              return (⟨sym, ⟨e.lo, e.hi⟩, l⟩ : Driven)) (g := fun e : Ivl Nat => do
              let l ← m'.getList e.val
              return (⟨sym, ⟨e.lo, e.hi⟩, l⟩ : Driven))
            (fun e => (map_getList hm e.val).bind fun x y hxy => ⟨rfl, rfl, hxy⟩) m.ivls
          generalize (m.ivls.mapM fun e : Ivl Nat => do
              let l ← m.getList e.val
              return (⟨sym, ⟨e.lo, e.hi⟩, l⟩ : Driven)) = x at key ⊢
          generalize (m.ivls.mapM fun e : Ivl Nat => do
              let l ← m'.getList e.val
              return (⟨sym, ⟨e.lo, e.hi⟩, l⟩ : Driven)) = y at key ⊢
          cases x with
          | error f =>
            cases y with
            | error g => exact key
            | ok vs => exact key.elim
          | ok vs =>
            cases y with
            | error g => exact key.elim
            | ok vs' => exact Rw.append key ih

/-! ### The merging of the drivers -/

theorem addDependencies_append (xs ys : List Dep) : ∀ net : NetGraph,
    net.addDependencies (xs ++ ys) = (net.addDependencies xs).bind fun n => n.addDependencies ys := by
  induction xs with
  | nil => intro net; rfl
  | cons d xs ih =>
    intro net
    simp only [List.cons_append, NetGraph.addDependencies]
    cases net.addDependency d with
    | none => rfl
    | some n => exact ih n

theorem addDeps_append (s : Bld) (xs ys : List Dep) :
    s.addDeps (xs ++ ys) = match s.addDeps xs with
      | .error f => .error f
      | .ok s' => s'.addDeps ys := by
  unfold Bld.addDeps
  rw [addDependencies_append]
  cases s.net.addDependencies xs <;> rfl

theorem addDeps_keeps {s s' : Bld} {ds : List Dep} (h : s.addDeps ds = .ok s') :
    s'.vars = s.vars ∧ s'.net.data = s.net.data := by
  unfold Bld.addDeps at h
  cases hd : s.net.addDependencies ds with
  | none => rw [hd] at h; cases h
  | some n => rw [hd] at h; cases h; exact ⟨rfl, (deps_same hd).2⟩

theorem hookupDeps_of {D : Design} {s s' : Bld} (h1 : s'.vars = s.vars) (h2 : s'.net.data = s.net.data)
    (sym : Nat) (b : BitRange) (l : List DriverInfo) : hookupDeps D s' sym b l = hookupDeps D s sym b l := by
  unfold hookupDeps portNodeFor
  rw [h1, h2]

theorem extraDeps_of {D : Design} {s s' : Bld} (h1 : s'.vars = s.vars) (h2 : s'.net.data = s.net.data)
    (sym : Nat) (b : BitRange) (l : List DriverInfo) : extraDeps D s' sym b l = extraDeps D s sym b l := by
  unfold extraDeps
  rw [h1, h2]

theorem acts_deps {D : Design} {env : List Nat} {ds0 : List Dep} : ∀ {s : Bld} {ds : List Dep},
    Rw (DepR env) ds0 ds →
    s.acts D env (ds0.map .dep) = match s.addDeps ds with
      | .error f => .error f
      | .ok s' => .ok (s', env) := by
  induction ds0 with
  | nil =>
    intro s ds hr
    have : ds = [] := List.length_eq_zero_iff.1 hr.1.symm
    subst this
    rfl
  | cons d ds0 ih =>
    intro s ds hr
    obtain ⟨d', ds', rfl, hd, hr'⟩ := hr.inv
    obtain ⟨h1, h2, h3, h4, h5⟩ := hd
    have he : (⟨d'.src, d'.tgt, d.sym, d.bounds, d.kind⟩ : Dep) = d' := by rw [← h3, ← h4, ← h5]
    simp only [List.map_cons, Bld.acts, Bld.act, h1, h2, he, Bld.addDeps, NetGraph.addDependencies]
    cases hn : s.net.addDependency d' with
    | none => rfl
    | some n => exact ih (s := { s with net := n }) hr'

/-- The pending reads of the clocks by position. -/
def clockActs (D : Design) (sens : List SensEntry) (k : Nat) : List BAct :=
  sens.filterMap fun e =>
    if D.width e.signal = 0 then none
    else some (.read e.signal ⟨0, (D.width e.signal : Int) - 1⟩ (some k) e.kind)

theorem acts_clocks {D : Design} {env : List Nat} {k st : Nat} (hk : env[k]? = some st)
    (sens : List SensEntry) : ∀ s : Bld,
    s.acts D env (clockActs D sens k) = .ok ({ s with queue := s.queue ++ clockReads D sens st }, env) := by
  induction sens with
  | nil => intro s; simp [clockActs, clockReads, Bld.acts]
  | cons e sens ih =>
    intro s
    unfold clockActs clockReads at ih ⊢
    by_cases hw : D.width e.signal = 0
    · simp only [List.filterMap_cons, hw, if_true]
      exact ih s
    · simp only [List.filterMap_cons, hw, if_false, Bld.acts, Bld.act, ownNode, hk, Option.map_some]
      rw [ih]
      simp

theorem acts_hook_extra {D : Design} {env : List Nat} {sym : Nat} {b : BitRange} {l l' h h' : List DriverInfo}
    (hl : driversOf env l = some l') (hh : driversOf env h = some h') (s : Bld) :
    s.acts D env [.hook sym b h, .extra sym b l] =
      match s.addDeps (hookupDeps D s sym b h' ++ extraDeps D s sym b l') with
      | .error f => .error f
      | .ok s' => .ok (s', env) := by
  rw [addDeps_append]
  simp only [Bld.acts, Bld.act, hl, hh]
  cases hd : s.addDeps (hookupDeps D s sym b h') with
  | error f => rfl
  | ok s' =>
    dsimp only
    obtain ⟨h1, h2⟩ := addDeps_keeps hd
    rw [hl]
    dsimp only
    rw [extraDeps_of h1 h2]
    cases s'.addDeps (extraDeps D s sym b l') <;> rfl

theorem acts_cons {D : Design} {env : List Nat} (s : Bld) (a : BAct) (as : List BAct) :
    s.acts D env (a :: as) = match s.act D env a with
      | .error f => .error f
      | .ok p => p.1.acts D p.2 as := by
  simp only [Bld.acts]
  cases s.act D env a <;> rfl

/-- One driven range. -/
theorem acts_comb {D : Design} {env : List Nat} {w w' : Driven} (hw : DrivenR env w w') (s : Bld) :
    s.acts D env [.drive w.sym w.bounds w.drivers, .hook w.sym w.bounds w.drivers,
      .extra w.sym w.bounds w.drivers] =
    match s.mergeComb D w'.sym w'.bounds w'.drivers with
    | .error f => .error f
    | .ok s' => .ok (s', env) := by
  obtain ⟨h1, h2, h3⟩ := hw
  rw [h1, h2, acts_cons]
  unfold Bld.mergeComb
  have e : s.act D env (.drive w.sym w.bounds w.drivers) =
      match s.trk.addDrivers s.drv w.sym ⟨w.bounds, w'.drivers, true⟩ with
      | .error f => .error f
      | .ok (t', drv') => .ok ({ s with trk := t', drv := drv' }, env) := by
    simp only [Bld.act, h3]
    rfl
  rw [e]
  cases ht : s.trk.addDrivers s.drv w.sym ⟨w.bounds, w'.drivers, true⟩ with
  | error f => rfl
  | ok p => exact acts_hook_extra h3 h3 _

theorem acts_seq {D : Design} {env : List Nat} {w w' : Driven} (hw : DrivenR env w w')
    (sens : List SensEntry) (s : Bld) :
    s.acts D env (.node (.state (D.ref w.sym).name (D.ref w.sym).path (D.ref w.sym).loc w.bounds) ::
      .reg w.sym w.bounds env.length :: (clockActs D sens env.length ++
      ((driverDeps w.drivers env.length (D.ref w.sym) w.bounds).map .dep ++
      [.hook w.sym w.bounds [⟨some env.length, 0⟩], .extra w.sym w.bounds w.drivers]))) =
    match s.mergeSeq D sens w'.sym w'.bounds w'.drivers with
    | .error f => .error f
    | .ok s' => .ok (s', env ++ [s.net.g.nextNode]) := by
  obtain ⟨h1, h2, h3⟩ := hw
  rw [h1, h2]
  have hm := driversOf_mono [s.net.g.nextNode] h3
  have hk : (env ++ [s.net.g.nextNode])[env.length]? = some s.net.g.nextNode := by simp
  simp only [Bld.acts.eq_2, Bld.act, Bld.mergeSeq, Bld.createState]
  cases hc : s.net.call (.addNode (.state (D.ref w.sym).name (D.ref w.sym).path (D.ref w.sym).loc w.bounds)) with
  | none => rfl
  | some net' =>
    dsimp only
    rw [hk]
    dsimp only
    rw [acts_append, acts_clocks hk]
    dsimp only
    rw [acts_append, acts_deps (driverDeps_rel hm hk (D.ref w.sym) w.bounds), List.append_assoc, addDeps_append]
    generalize (⟨net', s.vars.insert w.sym w.bounds s.net.g.nextNode, s.trk, s.drv,
      s.queue ++ clockReads D sens s.net.g.nextNode⟩ : Bld) = s2
    cases hd : s2.addDeps (driverDeps w'.drivers s.net.g.nextNode (D.ref w.sym) w.bounds) with
    | error f => rfl
    | ok s3 =>
      dsimp only
      obtain ⟨e1, e2⟩ := addDeps_keeps hd
      rw [← hookupDeps_of e1 e2, ← extraDeps_of e1 e2]
      exact acts_hook_extra hm (driversOf_mk (d := ⟨some env.length, 0⟩) (ds := []) (t := [])
        (n := some s.net.g.nextNode) (by simp [ownNode]) rfl) s3

/-- The operations that merge the drivers of a block which has made `k` nodes. -/
def mergeActs (D : Design) (sens : List SensEntry) : Nat → List Driven → List BAct
  | _, [] => []
  | k, w :: ws =>
    if sens.isEmpty then
      [.drive w.sym w.bounds w.drivers, .hook w.sym w.bounds w.drivers, .extra w.sym w.bounds w.drivers] ++
        mergeActs D sens k ws
    else
      (.node (.state (D.ref w.sym).name (D.ref w.sym).path (D.ref w.sym).loc w.bounds) ::
        .reg w.sym w.bounds k :: (clockActs D sens k ++ ((driverDeps w.drivers k (D.ref w.sym) w.bounds).map .dep ++
        [.hook w.sym w.bounds [⟨some k, 0⟩], .extra w.sym w.bounds w.drivers]))) ++ mergeActs D sens (k + 1) ws

theorem acts_merge {D : Design} (sens : List SensEntry) (ws : List Driven) : ∀ k, ∀ (s : Bld)
    (env : List Nat) (ws' : List Driven), env.length = k → Rw (DrivenR env) ws ws' →
    s.mergeDrivers D sens ws' = (s.acts D env (mergeActs D sens k ws)).map Prod.fst := by
  induction ws with
  | nil =>
    intro k s env ws' _ hr
    have : ws' = [] := List.length_eq_zero_iff.1 hr.1.symm
    subst this
    rfl
  | cons w ws ih =>
    intro k s env ws' hk hr
    obtain ⟨w', ws', rfl, hw, hr'⟩ := hr.inv
    rw [mergeActs]
    cases hs : sens.isEmpty with
    | true =>
      rw [if_pos rfl, acts_append, acts_comb hw]
      simp only [Bld.mergeDrivers, hs, if_true]
      cases s.mergeComb D w'.sym w'.bounds w'.drivers with
      | error f => rfl
      | ok s' => exact ih k s' env ws' hk hr'
    | false =>
      subst hk
      rw [if_neg (by simp), acts_append, acts_seq hw]
      simp only [Bld.mergeDrivers, hs, Bool.false_eq_true, if_false]
      cases s.mergeSeq D sens w'.sym w'.bounds w'.drivers with
      | error f => rfl
      | ok s' =>
        exact ih _ s' _ ws' (by simp) (hr'.mono fun a b hab => ⟨hab.1, hab.2.1, driversOf_mono _ hab.2.2⟩)

/-! ### Blocks -/

theorem pre_start (B : Bld) : Pre 0 [] B { net := {} } { net := B.net, queue := B.queue } :=
  ⟨List.nodup_nil, rfl, fun _ h => by simp at h, rfl, ⟨Rw.nil, rfl, rfl, rfl⟩, Rw.nil⟩

/-- The operations that end a block, by its driven ranges. -/
def endActs (D : Design) (sens : List SensEntry) (k : Nat) : Except Fault (List Driven) → List BAct
  | .error f => [.fault f]
  | .ok ws => mergeActs D sens k ws

/-- The analysis of a block and the merging of its drivers. -/
theorem analysed_script {D : Design} (ord : Tracker → List (Nat × Nat)) (sens : List SensEntry)
    {F : DfaCtx → Dfa → Except Fault Dfa} {as : List BAct} {k : Nat} {P : Dfa}
    (h : Sim D 0 { net := {} } F as k P) (s : Bld) :
    (match F ⟨D, s.vars, none⟩ { net := s.net, queue := s.queue } with
      | .error e => .error e
      | .ok d => s.mergeBlock D ord sens d) =
    (s.acts D [] (as ++ endActs D sens k (drivenOf P.cur.drv (ord P.trk)))).map Prod.fst := by
  have hput : ∀ s : Bld, putDfa s { net := s.net, queue := s.queue } = s := fun s => rfl
  have := h s [] _ (pre_start s)
  rw [hput] at this
  rw [acts_append]
  cases h1 : F ⟨D, s.vars, none⟩ { net := s.net, queue := s.queue } with
  | error e =>
    cases h2 : s.acts D [] as with
    | error g => rw [h1, h2] at this; exact congrArg _ this
    | ok p => rw [h1, h2] at this; exact this.elim
  | ok d =>
    cases h2 : s.acts D [] as with
    | error g => rw [h1, h2] at this; exact this.elim
    | ok p =>
      rw [h1, h2] at this
      obtain ⟨e1, _, hp⟩ := this
      have hd := drivenOf_rel hp.cur.drv (ord P.trk)
      simp only [Bld.mergeBlock]
      rw [hp.trk]
      cases h3 : drivenOf d.cur.drv (ord P.trk) with
      | error g =>
        cases h4 : drivenOf P.cur.drv (ord P.trk) with
        | error f => rw [h3, h4] at hd; exact congrArg _ hd.symm
        | ok ws => rw [h3, h4] at hd; exact hd.elim
      | ok ws' =>
        cases h4 : drivenOf P.cur.drv (ord P.trk) with
        | error f => rw [h3, h4] at hd; exact hd.elim
        | ok ws =>
          rw [h3, h4] at hd
          dsimp only
          rw [e1]
          exact acts_merge sens ws k _ p.2 ws' hp.len hd

/-- The analysis of a block without the merging of its drivers. -/
def analyse : Deferred → DfaCtx → Dfa → Except Fault Dfa
  | .procedural _ _ st => fun c s => s.runBlock c st
  | .continuous loc a => fun c s => s.exec c (.assign loc true a)

theorem has_analyse (D : Design) (b : Deferred) : HasSim D (analyse b) := by
  cases b with
  | procedural k body st => exact has_run st
  | continuous loc a => exact has_exec _

/-- The operations of a block: a fault, or those of the analysis and then those of the merging. -/
theorem block_script (D : Design) (ord : Tracker → List (Nat × Nat)) (b : Deferred) {as : List BAct} {k : Nat}
    {P : Dfa} (h : Sim D 0 { net := {} } (analyse b) as k P) :
    (∃ f, Scripted D ord b [.fault f]) ∨
      ∃ sens, Scripted D ord b (as ++ endActs D sens k (drivenOf P.cur.drv (ord P.trk))) := by
  cases b with
  | procedural pk body st =>
    cases hc : collectSensitivity pk body with
    | error f =>
      refine .inl ⟨f, fun s => ?_⟩
      simp only [Bld.handleBlock, Bld.handleProcedural, hc]
      rfl
    | ok sens =>
      refine .inr ⟨sens, fun s => ?_⟩
      simp only [Bld.handleBlock, Bld.handleProcedural, hc]
      exact analysed_script ord sens h s
  | continuous loc a => exact .inr ⟨[], fun s => analysed_script ord [] h s⟩

theorem block_scripted (D : Design) (ord : Tracker → List (Nat × Nat)) (b : Deferred) :
    ∃ as, Scripted D ord b as := by
  obtain ⟨as, k, P, _, h⟩ := has_analyse D b 0 { net := {} }
  rcases block_script D ord b h with ⟨f, h⟩ | ⟨sens, h⟩
  · exact ⟨_, h⟩
  · exact ⟨_, h⟩

end Verif.Proofs

import Verif.Proofs.ScheduleTasks
import Verif.Props.Script

/-!
C94: blocks that meet in nothing whose order matters give the same netlist, up to the names of nodes, in
whatever order their operations are done.
-/
namespace Verif.Props
open Verif.Spec Verif.Model Verif.Proofs

/-! ### Operations in two orders -/

theorem same_outcome {D : Design} {s : Bld} {hist : List (Nat × Rec)} {as : Nat → List BAct}
    (hs : Begun s hist) (hsep : Separate D s as) {l m : List (Nat × BAct)} (hl : ScheduleOf as l)
    (hm : ScheduleOf as m) {s1 : Bld} {e1 : Nat → List Nat} (h : s.mixed D (fun _ => []) l = .ok (s1, e1)) :
    ∃ s2 e2 S E, s.mixed D (fun _ => []) m = .ok (s2, e2) ∧ Mated (Mate s e1 e2) s1 s2 ∧
      MixInv s as as s2 e2 S E ∧ ∀ w, s.acts D [] (as w) = .ok (S w, E w) := by
  have start := mix_start hs as
  have key := fun (l : List (Nat × BAct)) (hl : ScheduleOf as l) =>
    mixed_inv (D := D) hsep (begun_view hs) hs.vars l start (fun w => by rw [hl w]; rfl) fun w => rfl
  obtain ⟨S, E, h1, h2⟩ := (key l hl).1 s1 e1 h
  cases hm' : s.mixed D (fun _ => []) m with
  | error f =>
    obtain ⟨w, h3⟩ := (key m hm).2 f hm'
    rw [h2 w] at h3
    cases h3
  | ok p =>
    obtain ⟨S', E', h3, h4⟩ := (key m hm).1 p.1 p.2 hm'
    have e1 : S' = S := by
      funext w
      have := h2 w
      rw [h4 w] at this
      exact congrArg Prod.fst (Except.ok.inj this)
    have e2 : E' = E := by
      funext w
      have := h2 w
      rw [h4 w] at this
      exact congrArg Prod.snd (Except.ok.inj this)
    subst e1
    subst e2
    exact ⟨p.1, p.2, _, _, rfl, paired_of_mix hsep (fun _ _ _ h => begun_nodes hs h) h1 h3, h3, h4⟩

/-- What two builders with the same nodes up to names have in common. -/
theorem paired_same {D : Design} {s s1 s2 : Bld} {e1 e2 : Nat → List Nat} (h : Mated (Mate s e1 e2) s1 s2) :
    ∃ f, (∀ x ∈ s.net.g.nodes, f x = x) ∧ Renamed f s1.net s2.net ∧
      ∃ n1 n2, resolveSequential (s1.ctx D) s1.net s1.queue = .ok n1 ∧
        resolveSequential (s2.ctx D) s2.net s2.queue = .ok n2 ∧ Renamed f n1 n2 ∧
        ∀ (addr : Nat → Nat), (∀ a b, addr a = addr b → a = b) → ∀ n3,
          ResolvesParallel (s2.ctx D) addr s2.net s2.queue n3 → ∀ x ∈ n1.g.nodes, ∀ y ∈ n1.g.nodes,
            (Joined n3 (f x) (f y) ↔ Joined n1 x y) := by
  obtain ⟨_, rb, n1, n2, h1, h2, h3, h4, h5⟩ := h.resolve (D := D)
  have hr := h.renamed h3 h4 h5
  refine ⟨mateOf (Mate s e1 e2), fun x hx => mateOf_spec h.func (Or.inl ⟨hx, rfl⟩),
    h.renamed ⟨rfl, rfl⟩ ⟨rfl, rfl⟩ h.ann, n1, n2, h1, h2, hr, ?_⟩
  intro addr ha n3 hp x hx y hy
  obtain ⟨n4, h6, h7⟩ := parallel_joins_same ha h.reach' rb hp
  rw [h2] at h6
  cases h6
  rw [h7, joined_iff, joined_iff, hr.edges x hx y hy]

/-! ### Blocks one after the other -/

theorem mixed_block {D : Design} {w : Nat} {l : List (Nat × BAct)} : ∀ {a : List BAct} {s : Bld}
    {envs : Nat → List Nat}, s.mixed D envs (a.map (w, ·) ++ l) =
      match s.acts D (envs w) a with
      | .error f => .error f
      | .ok (s', env') => s'.mixed D (upd envs w env') l := by
  intro a
  induction a with
  | nil =>
    intro s envs
    simp only [List.map_nil, List.nil_append, Bld.acts]
    rw [upd_self]
  | cons b a ih =>
    intro s envs
    simp only [List.map_cons, List.cons_append, Bld.mixed, Bld.acts]
    cases s.act D (envs w) b with
    | error f => rfl
    | ok p =>
      have e : (fun v => if v = w then p.2 else envs v) = upd envs w p.2 := rfl
      dsimp only
      rw [e, ih, upd_same]
      have e2 : ∀ x, upd (upd envs w p.2) w x = upd envs w x := by
        intro x; funext v
        by_cases hv : v = w
        · subst hv; rw [upd_same, upd_same]
        · rw [upd_ne _ _ hv, upd_ne _ _ hv, upd_ne _ _ hv]
      simp only [e2]

theorem run_oneByOne {D : Design} {ord : Tracker → List (Nat × Nat)} {as : Nat → List BAct} :
    ∀ {ws : List Nat} {bs : List Deferred}, Rw (fun w b => Scripted D ord b (as w)) ws bs → ws.Nodup →
    ∀ (s : Bld) (envs : Nat → List Nat), (∀ w ∈ ws, envs w = []) →
      s.runBlocks D ord bs = (s.mixed D envs (oneByOne as ws)).map Prod.fst := by
  intro ws
  induction ws with
  | nil =>
    intro bs h _ s envs _
    obtain rfl : bs = [] := List.length_eq_zero_iff.1 h.1.symm
    rfl
  | cons w ws ih =>
    intro bs h hn s envs he
    obtain ⟨b, bs, rfl, hb, ht⟩ := h.inv
    obtain ⟨hw, hn⟩ := List.nodup_cons.1 hn
    simp only [oneByOne, List.flatMap_cons, Bld.runBlocks]
    rw [mixed_block, he w (by simp), hb s]
    cases s.acts D [] (as w) with
    | error f => rfl
    | ok p =>
      refine ih ht hn p.1 (upd envs w p.2) fun v hv => ?_
      have hne : v ≠ w := fun e => hw (e ▸ hv)
      rw [upd_ne _ _ hne, he v (by simp [hv])]

theorem opsOf_append (l m : List (Nat × BAct)) (w : Nat) : opsOf (l ++ m) w = opsOf l w ++ opsOf m w := by
  simp [opsOf]

theorem opsOf_block (a : List BAct) (w v : Nat) : opsOf (a.map (w, ·)) v = if v = w then a else [] := by
  induction a with
  | nil => simp [opsOf]
  | cons b a ih =>
    rw [List.map_cons, opsOf_cons, ih]
    by_cases h : v = w <;> simp [h]

theorem oneByOne_ops (as : Nat → List BAct) {ws : List Nat} (hn : ws.Nodup) (v : Nat) :
    opsOf (oneByOne as ws) v = if v ∈ ws then as v else [] := by
  induction ws with
  | nil => simp [oneByOne, opsOf]
  | cons w ws ih =>
    obtain ⟨hw, hn⟩ := List.nodup_cons.1 hn
    have : oneByOne as (w :: ws) = (as w).map (w, ·) ++ oneByOne as ws := rfl
    rw [this, opsOf_append, opsOf_block, ih hn]
    by_cases h : v = w
    · subst h; simp [hw]
    · simp [h]

/-- C93, C94: every list of blocks has such operations. -/
theorem scripts_exist (D : Design) (ord : Tracker → List (Nat × Nat)) (bs : List Deferred) :
    ∃ as, ScriptsOf D ord bs as := by
  refine ⟨fun w => match bs[w]? with
    | none => []
    | some b => Classical.choose (block_is_script D ord b), fun w b hb => ?_, fun w hw => ?_⟩
  · simp only [hb]
    exact Classical.choose_spec (block_is_script D ord b)
  · simp only [List.getElem?_eq_none hw]

theorem scripts_rw {D : Design} {ord : Tracker → List (Nat × Nat)} {bs : List Deferred} {as : Nat → List BAct}
    (h : ScriptsOf D ord bs as) : Rw (fun w b => Scripted D ord b (as w)) (List.range bs.length) bs := by
  refine ⟨by simp, fun i w b hw hb => ?_⟩
  obtain ⟨h1, h2⟩ := List.getElem?_eq_some_iff.1 hw
  rw [List.getElem_range] at h2
  subst h2
  exact h.block i b hb

theorem scripts_schedule {D : Design} {ord : Tracker → List (Nat × Nat)} {bs : List Deferred}
    {as : Nat → List BAct} (h : ScriptsOf D ord bs as) {ws : List Nat} (hp : ws.Perm (List.range bs.length)) :
    ScheduleOf as (oneByOne as ws) := by
  intro v
  rw [oneByOne_ops as (hp.nodup_iff.2 List.nodup_range)]
  split
  · rfl
  · rename_i hv
    rw [hp.mem_iff, List.mem_range] at hv
    rw [h.rest v (by omega)]

/-! ### The property -/

/-- C94: let the operations of the blocks meet in nothing whose order matters. If the blocks, one after the
other, are analysed without a fault, then so are they in parallel tasks, in whatever order the operations of the
tasks are done, as long as each task does its own in order. When the buffers of the tasks are drained, the
netlist is the same up to the names of the new nodes, before and after the pending reads are resolved, edge for
edge and annotation for annotation; and if the reads are resolved by threads as well, the same nodes are joined.

Partial: `Separate` leaves out the designs of `order_changes_netlist`, where the netlists do differ; also, the
operations are taken as steps that are not interrupted. -/
theorem any_schedule_partial {D : Design} {ord : Tracker → List (Nat × Nat)} {s : Bld} {hist : List (Nat × Rec)}
    {bs : List Deferred} {as : Nat → List BAct} (hs : Begun s hist) (hb : ScriptsOf D ord bs as)
    (hsep : Separate D s as) {l : List (Nat × BAct)} (hl : ScheduleOf as l) {s1 : Bld}
    (h : s.runBlocks D ord bs = .ok s1) :
    ∃ r e2 bufs s2, s.tasks D (fun _ => []) (fun _ => []) l = .ok (r, e2, bufs) ∧ s2 = r.drain bs.length bufs ∧
      ∃ f, (∀ x ∈ s.net.g.nodes, f x = x) ∧
      Renamed f s1.net s2.net ∧ ∃ n1 n2, s.build D ord bs = .ok n1 ∧
        resolveSequential (s2.ctx D) s2.net s2.queue = .ok n2 ∧ Renamed f n1 n2 ∧
        ∀ (addr : Nat → Nat), (∀ a b, addr a = addr b → a = b) → ∀ n3,
          ResolvesParallel (s2.ctx D) addr s2.net s2.queue n3 → ∀ x ∈ n1.g.nodes, ∀ y ∈ n1.g.nodes,
            (Joined n3 (f x) (f y) ↔ Joined n1 x y) := by
  have hrun := run_oneByOne (scripts_rw hb) List.nodup_range s (fun _ => []) fun _ _ => rfl
  rw [h] at hrun
  cases hm : s.mixed D (fun _ => []) (oneByOne as (List.range bs.length)) with
  | error f => rw [hm] at hrun; cases hrun
  | ok p =>
    rw [hm] at hrun
    obtain rfl : s1 = p.1 := Except.ok.inj hrun
    obtain ⟨s2, e2, S, E, h1, h2, h3, h4⟩ := same_outcome hs hsep (scripts_schedule hb (List.Perm.refl _)) hl hm
    have ht := tasks_mixed (D := D) l s (fun _ => []) (fun _ => []) [] s.queue (fun _ => rfl) (by simp)
    rw [show ({ s with queue := s.queue ++ List.map (·.2) ([] : List (Nat × Pending)) } : Bld) = s by simp, h1] at ht
    cases hr : s.tasks D (fun _ => []) (fun _ => []) l with
    | error f => rw [hr] at ht; exact ht.elim
    | ok q =>
      obtain ⟨r, e3, bufs⟩ := q
      rw [hr] at ht
      obtain ⟨t1, t2, T, t3, t4, t5⟩ := ht
      dsimp only at t1 t2 t3 t4 t5
      subst t1
      subst t2
      have hk : ∀ w, bs.length ≤ w → e3 w = [] := by
        intro w hw
        have h5 := h4 w
        rw [hb.rest w hw] at h5
        have h6 : E w = [] := (congrArg Prod.snd (Except.ok.inj h5)).symm
        have := h3.g.len w
        rw [h6] at this
        exact List.length_eq_zero_iff.1 this
      have hd := drain_mated h2 h3 hs.pend t3 t4 t5 hk
      obtain ⟨f, h3, h4, n1, n2, h5, h6⟩ := paired_same (D := D) hd
      exact ⟨_, _, _, _, rfl, rfl, f, h3, h4, n1, n2, by simp only [Bld.build, h, h5], h6⟩

/-- C94, faults: if the blocks one after the other end in a fault, then so do the tasks, in every order of
their operations. -/
theorem any_schedule_fault_partial {D : Design} {ord : Tracker → List (Nat × Nat)} {s : Bld}
    {hist : List (Nat × Rec)} {bs : List Deferred} {as : Nat → List BAct} (hs : Begun s hist)
    (hb : ScriptsOf D ord bs as) (hsep : Separate D s as) {l : List (Nat × BAct)} (hl : ScheduleOf as l)
    {e : Fault} (h : s.runBlocks D ord bs = .error e) :
    ∃ e', s.tasks D (fun _ => []) (fun _ => []) l = .error e' := by
  have hrun := run_oneByOne (scripts_rw hb) List.nodup_range s (fun _ => []) fun _ _ => rfl
  rw [h] at hrun
  have ht := tasks_mixed (D := D) l s (fun _ => []) (fun _ => []) [] s.queue (fun _ => rfl) (by simp)
  rw [show ({ s with queue := s.queue ++ List.map (·.2) ([] : List (Nat × Pending)) } : Bld) = s by simp] at ht
  cases hm : s.mixed D (fun _ => []) l with
  | error f =>
    rw [hm] at ht
    cases hr : s.tasks D (fun _ => []) (fun _ => []) l with
    | error g => exact ⟨g, rfl⟩
    | ok q => rw [hr] at ht; exact ht.elim
  | ok p =>
    obtain ⟨s2, e2, _, _, h1, _⟩ := same_outcome hs hsep hl (scripts_schedule hb (List.Perm.refl _))
      (s1 := p.1) (e1 := p.2) hm
    rw [h1] at hrun
    cases hrun

/-- C94, blocks in another order: the blocks analysed one after the other in any order give the same netlist up
to the names of the new nodes. -/
theorem block_order_partial {D : Design} {ord : Tracker → List (Nat × Nat)} {s : Bld} {hist : List (Nat × Rec)}
    {bs cs : List Deferred} {as : Nat → List BAct} (hs : Begun s hist) (hb : ScriptsOf D ord bs as)
    (hsep : Separate D s as) {ws : List Nat} (hp : ws.Perm (List.range bs.length))
    (hc : ws.map (fun w => bs[w]?) = cs.map some) {s1 : Bld} (h : s.runBlocks D ord bs = .ok s1) :
    ∃ n1 n2 f, s.build D ord bs = .ok n1 ∧ s.build D ord cs = .ok n2 ∧ Renamed f n1 n2 ∧
      ∀ x ∈ s.net.g.nodes, f x = x := by
  have hcs : Rw (fun w b => Scripted D ord b (as w)) ws cs := by
    refine ⟨by simpa using congrArg List.length hc, fun i w b hw hbb => ?_⟩
    have : (ws.map (fun w => bs[w]?))[i]? = (cs.map some)[i]? := by rw [hc]
    rw [List.getElem?_map, List.getElem?_map, hw, hbb] at this
    exact hb.block w b (Option.some.inj this)
  have hrun := run_oneByOne hcs (hp.nodup_iff.2 List.nodup_range) s (fun _ => []) fun _ _ => rfl
  have hbs := run_oneByOne (scripts_rw hb) List.nodup_range s (fun _ => []) fun _ _ => rfl
  rw [h] at hbs
  cases hm : s.mixed D (fun _ => []) (oneByOne as (List.range bs.length)) with
  | error f => rw [hm] at hbs; cases hbs
  | ok p =>
    rw [hm] at hbs
    obtain rfl : s1 = p.1 := Except.ok.inj hbs
    obtain ⟨s2, e2, _, _, h1, h2, _⟩ := same_outcome hs hsep (scripts_schedule hb (List.Perm.refl _))
      (scripts_schedule hb hp) hm
    obtain ⟨f, h3, _, n1, n2, h5, h6, h7, _⟩ := paired_same (D := D) h2
    rw [h1] at hrun
    have hrun : s.runBlocks D ord cs = .ok s2 := hrun
    exact ⟨n1, n2, f, by simp only [Bld.build, h, h5], by simp only [Bld.build, hrun, h6], h7, h3⟩

/-! ### A concrete design

The blocks `assign b = a;` and `always_ff @(posedge b) q <= c;` of the sample design. -/

/-- The operations of `assign b = a;`. -/
def dsScriptB : List BAct :=
  [.node (.assignment (ln 1)), .read 0 ⟨0, 7⟩ (some 0) .none, .drive 1 ⟨0, 7⟩ [⟨some 0, 0⟩],
    .hook 1 ⟨0, 7⟩ [⟨some 0, 0⟩], .extra 1 ⟨0, 7⟩ [⟨some 0, 0⟩]]

theorem ds_script_b : Scripted flowCtx.D Tracker.slots dsB dsScriptB := by
  intro s
  obtain ⟨X, x, h1, h2⟩ : ∃ (X : Bld) (x : Nat), (s.acts flowCtx.D [] (dsScriptB.take 2) = .ok (X, [x])) ∧
      s.handleBlock flowCtx.D Tracker.slots dsB = X.mergeDrivers flowCtx.D [] [⟨1, ⟨0, 7⟩, [⟨some x, 0⟩]⟩] :=
    ⟨_, _, rfl, rfl⟩
  rw [h2, show dsScriptB = dsScriptB.take 2 ++ dsScriptB.drop 2 from rfl, acts_append, h1]
  show _ = Except.map Prod.fst (X.acts flowCtx.D [x] (dsScriptB.drop 2))
  have hd : X.act flowCtx.D [x] (.drive 1 ⟨0, 7⟩ [⟨some 0, 0⟩]) =
      match X.trk.addDrivers X.drv 1 ⟨⟨0, 7⟩, [⟨some x, 0⟩], true⟩ with
      | .error f => .error f
      | .ok (t', drv') => .ok ({ X with trk := t', drv := drv' }, [x]) := rfl
  rw [show dsScriptB.drop 2 = .drive 1 ⟨0, 7⟩ [⟨some 0, 0⟩] :: dsScriptB.drop 3 from rfl, acts_cons, hd]
  simp only [Bld.mergeDrivers, Bld.mergeComb]
  cases X.trk.addDrivers X.drv 1 ⟨⟨0, 7⟩, [⟨some x, 0⟩], true⟩ <;> rfl

/-- The operations of the two blocks. -/
def dsOps (w : Nat) : List BAct := if w = 0 then dsScriptB else if w = 1 then dsScript else []

theorem ds_scripts : ScriptsOf flowCtx.D Tracker.slots [dsB, dsQ] dsOps := by
  refine ⟨fun w b hb => ?_, fun w hw => ?_⟩
  · match w, hb with
    | 0, hb => cases hb; exact ds_script_b
    | 1, hb => cases hb; exact ds_script
  · simp at hw
    simp [dsOps, show w ≠ 0 by omega, show w ≠ 1 by omega]

theorem ds_begun : Begun dsBld dsHist where
  reach := ⟨[dsCall], rfl⟩
  vars := fun sym e he => by cases he
  sorted := fun sym => List.Pairwise.nil
  pend := fun p hp => by cases hp
  run := by rfl
  range := by
    intro sym r hr
    obtain ⟨x, hx, rfl⟩ := List.mem_map.1 hr
    cases List.mem_singleton.1 (List.mem_filter.1 hx).1
    decide
  splits := by
    intro sym
    refine never_splits ?_
    unfold NeverInside histOf dsHist
    by_cases h : sym = 0
    · subst h; decide
    · simp [show (0 == sym) = false by simpa using fun e => h e.symm]
  nodes := by
    intro x hx d hd n hn
    cases List.mem_singleton.1 hx
    cases List.mem_singleton.1 hd
    cases hn
    decide

theorem dsOps_mem {w : Nat} {a : BAct} (h : a ∈ dsOps w) : (w = 0 ∧ a ∈ dsScriptB) ∨ (w = 1 ∧ a ∈ dsScript) := by
  unfold dsOps at h
  split at h
  · exact Or.inl ⟨by assumption, h⟩
  · split at h
    · exact Or.inr ⟨by assumption, h⟩
    · cases h

theorem ds_drive {w sym : Nat} {b : BitRange} {l : List DriverInfo} (h : BAct.drive sym b l ∈ dsOps w) :
    w = 0 ∧ sym = 1 ∧ b = ⟨0, 7⟩ := by
  rcases dsOps_mem h with ⟨h1, h2⟩ | ⟨_, h2⟩
  · simp [dsScriptB] at h2; exact ⟨h1, h2.1, h2.2.1⟩
  · simp [dsScript] at h2

theorem ds_reg {w sym i : Nat} {b : BitRange} (h : BAct.reg sym b i ∈ dsOps w) : w = 1 := by
  rcases dsOps_mem h with ⟨_, h2⟩ | ⟨h1, _⟩
  · simp [dsScriptB] at h2
  · exact h1

theorem ds_separate : Separate flowCtx.D dsBld dsOps where
  reads := fun w r b a _ v hv => by cases hv
  writes := fun w sym b l _ _ d _ v hv => by cases hv
  vars := by
    intro w sym b l _ hk
    simp only [flowCtx] at hk
    split at hk <;> cases hk
  ports := fun w sym b l z _ hz => by cases hz
  regs := fun w v sym b c i j h1 h2 hne => absurd ((ds_reg h1).trans (ds_reg h2).symm) hne
  own := by
    intro w
    by_cases h0 : w = 0
    · subst h0
      simp [dsOps, dsScriptB, Unmet]
    · by_cases h1 : w = 1
      · subst h1; simp [dsOps, dsScript, Unmet]
      · simp [dsOps, h0, h1]
  other := by
    rintro w v hne a ha b hb sym x l y m rfl rfl
    exact absurd ((ds_drive ha).1.trans (ds_drive hb).1.symm) hne
  before := by
    intro w sym b l h
    obtain ⟨_, rfl, rfl⟩ := ds_drive h
    rfl
  range := by
    intro w sym b l h i hi
    obtain ⟨_, _, rfl⟩ := ds_drive h
    rw [inRng_iff] at hi
    simp [BitRange.lower, BitRange.upper] at hi
    omega

/-- An order of the operations of the two blocks in which they take turns, and the register is made first. -/
def dsMix : List (Nat × BAct) :=
  (dsScript.take 3).map (1, ·) ++ (dsScriptB.take 2).map (0, ·) ++ (dsScript.drop 3).map (1, ·) ++
    (dsScriptB.drop 2).map (0, ·)

theorem ds_mix : ScheduleOf dsOps dsMix := by
  intro w
  by_cases h0 : w = 0
  · subst h0; rfl
  · by_cases h1 : w = 1
    · subst h1; rfl
    · simp only [dsMix, opsOf_append, opsOf_block, dsOps, if_neg h0, if_neg h1, List.append_nil]

/-- The hypotheses of `any_schedule_partial` are met by the two blocks and that order. -/
example : Begun dsBld dsHist ∧ ScriptsOf flowCtx.D Tracker.slots [dsB, dsQ] dsOps ∧
    Separate flowCtx.D dsBld dsOps ∧ ScheduleOf dsOps dsMix ∧
    ∃ s1, dsBld.runBlocks flowCtx.D Tracker.slots [dsB, dsQ] = .ok s1 :=
  ⟨ds_begun, ds_scripts, ds_separate, ds_mix, _, rfl⟩

/-- The two orders do number the nodes differently: in order the assignment of the first block comes first, in
the other order it comes last. -/
example : (∃ s1, dsBld.runBlocks flowCtx.D Tracker.slots [dsB, dsQ] = .ok s1 ∧
      s1.net.g.nodes.map s1.net.data = [.port ['a'] ['a'] {} .input ⟨0, 7⟩, .assignment (ln 1),
        .assignment (ln 5), .state [] ['d'] {} ⟨0, 7⟩]) ∧
    ∃ s2 e2 bufs, dsBld.tasks flowCtx.D (fun _ => []) (fun _ => []) dsMix = .ok (s2, e2, bufs) ∧
      s2.net.g.nodes.map s2.net.data = [.port ['a'] ['a'] {} .input ⟨0, 7⟩, .assignment (ln 5),
        .state [] ['d'] {} ⟨0, 7⟩, .assignment (ln 1)] :=
  ⟨⟨_, rfl, rfl⟩, _, _, _, rfl, rfl⟩

/-- The conclusion for that order. -/
example : ∃ r e2 bufs f n1 n2, dsBld.tasks flowCtx.D (fun _ => []) (fun _ => []) dsMix = .ok (r, e2, bufs) ∧
    dsBld.build flowCtx.D Tracker.slots [dsB, dsQ] = .ok n1 ∧
    resolveSequential ((r.drain 2 bufs).ctx flowCtx.D) (r.drain 2 bufs).net (r.drain 2 bufs).queue = .ok n2 ∧
    Renamed f n1 n2 := by
  obtain ⟨r, e2, bufs, s2, h1, rfl, f, _, _, n1, n2, h2, h3, h4, _⟩ :=
    any_schedule_partial ds_begun ds_scripts ds_separate ds_mix rfl
  exact ⟨r, e2, bufs, f, n1, n2, h1, h2, h3, h4⟩

/-- The hypotheses of `block_order_partial` are met by the two blocks in the other order. -/
example : ∃ n1 n2 f, dsBld.build flowCtx.D Tracker.slots [dsB, dsQ] = .ok n1 ∧
    dsBld.build flowCtx.D Tracker.slots [dsQ, dsB] = .ok n2 ∧ Renamed f n1 n2 ∧
    ∀ x ∈ dsBld.net.g.nodes, f x = x :=
  block_order_partial (ws := [1, 0]) ds_begun ds_scripts ds_separate (by decide) rfl rfl

/-- A clocked block with an event that is no signal event, which fails an assertion; it is the same on every
builder. -/
def dsBad : Deferred := .procedural .alwaysFF (.timed (.eventList [none])) dsQ.stmt

/-- The operations of `assign b = a;` and of that block. -/
def badOps (w : Nat) : List BAct := if w = 0 then dsScriptB else if w = 1 then [.fault .oob] else []

theorem bad_scripts : ScriptsOf flowCtx.D Tracker.slots [dsB, dsBad] badOps := by
  refine ⟨fun w b hb => ?_, fun w hw => ?_⟩
  · match w, hb with
    | 0, hb => cases hb; exact ds_script_b
    | 1, hb => cases hb; exact fun s => rfl
  · simp at hw
    simp [badOps, show w ≠ 0 by omega, show w ≠ 1 by omega]

theorem bad_mem {w : Nat} {a : BAct} (h : a ∈ badOps w) : (w = 0 ∧ a ∈ dsOps 0) ∨ (w = 1 ∧ a = .fault .oob) := by
  unfold badOps at h
  split at h
  · exact Or.inl ⟨by assumption, h⟩
  · split at h
    · exact Or.inr ⟨by assumption, List.mem_singleton.1 h⟩
    · cases h

theorem bad_drive {w sym : Nat} {b : BitRange} {l : List DriverInfo} (h : BAct.drive sym b l ∈ badOps w) :
    w = 0 ∧ sym = 1 ∧ b = ⟨0, 7⟩ := by
  rcases bad_mem h with ⟨h1, h2⟩ | ⟨_, h2⟩
  · exact ⟨h1, (ds_drive h2).2⟩
  · cases h2

theorem bad_reg {w sym i : Nat} {b : BitRange} : BAct.reg sym b i ∉ badOps w := by
  intro h
  rcases bad_mem h with ⟨_, h2⟩ | ⟨_, h2⟩
  · exact absurd (ds_reg h2) (by decide)
  · cases h2

theorem bad_separate : Separate flowCtx.D dsBld badOps where
  reads := fun w r b a _ v hv => by cases hv
  writes := fun w sym b l _ _ d _ v hv => by cases hv
  vars := fun w sym b l _ _ v c i _ h => absurd h bad_reg
  ports := fun w sym b l z _ hz => by cases hz
  regs := fun w v sym b c i j h => absurd h bad_reg
  own := by
    intro w
    by_cases h0 : w = 0
    · subst h0; exact ds_separate.own 0
    · by_cases h1 : w = 1
      · subst h1; simp [badOps]
      · simp [badOps, h0, h1]
  other := by
    rintro w v hne a ha b hb sym x l y m rfl rfl
    exact absurd ((bad_drive ha).1.trans (bad_drive hb).1.symm) hne
  before := by
    intro w sym b l h
    obtain ⟨_, rfl, rfl⟩ := bad_drive h
    rfl
  range := by
    intro w sym b l h i hi
    obtain ⟨_, _, rfl⟩ := bad_drive h
    rw [inRng_iff] at hi
    simp [BitRange.lower, BitRange.upper] at hi
    omega

/-- The hypotheses of `any_schedule_fault_partial` are met by `assign b = a;` and a block that goes wrong by
itself, here with the bad block first. -/
example : ∃ e, dsBld.tasks flowCtx.D (fun _ => []) (fun _ => []) (oneByOne badOps [1, 0]) = .error e :=
  any_schedule_fault_partial ds_begun bad_scripts bad_separate
    (scripts_schedule bad_scripts (ws := [1, 0]) (by decide)) (e := .oob) rfl

end Verif.Props

import Verif.Proofs.TaskGraph

/-!
The parallel Phase 2 in small steps against the same operations done at once: what a task still has to do to the
edges between two nodes.
-/
namespace Verif.Proofs
open Verif.Model Verif.Spec Verif.Props

/-- What a job asks for, given the variable nodes; nothing if it finds no variable node. -/
def jobPhase (vars : VarTab) (data : Nat → NodeData) : TaskJob → Option TaskPhase
  | .plain x y => some (.edge x y)
  | .dep d => some (.first d)
  | .into x sym c ref b own => (vars.lookup sym c).map fun vn =>
      .first ⟨x, vn, some ref, if own then ((data vn).bounds).getD b else b, .none⟩
  | .outOf sym c y ref b => (vars.lookup sym c).map fun vn => .first ⟨vn, y, some ref, b, .none⟩

/-- The call a task makes. -/
def reqFor : TaskPhase → Req
  | .free => ⟨true, 0, 0⟩
  | .edge x y => ⟨true, x, y⟩
  | .first d => ⟨true, d.src, d.tgt⟩
  | .second d => ⟨false, d.src, d.tgt⟩

theorem begin_eq (p : TaskSt) (u : Nat) (j : TaskJob) :
    p.begin u j = match jobPhase p.b.vars p.b.net.data j with
      | none => p
      | some c => p.call u c (reqFor c) := by
  cases j with
  | plain x y => rfl
  | dep d => rfl
  | into x sym c ref b own =>
    simp only [TaskSt.begin, jobPhase]
    cases p.b.vars.lookup sym c <;> rfl
  | outOf sym c y ref b =>
    simp only [TaskSt.begin, jobPhase]
    cases p.b.vars.lookup sym c <;> rfl

/-- The call has its edge. -/
def pushed : LPhase → Bool
  | .lockSrc _ | .look _ | .pushOut _ => false
  | _ => true

/-- What is still to come of a dependency does this to the annotations of its pair. -/
def phaseApp (data : Nat → NodeData) (c : TaskPhase) (done : Bool) (l : List EdgeAttr) : List EdgeAttr :=
  match c with
  | .free => l
  | .edge _ _ =>
    match l with
    | [] => [{}]
    | _ => l
  | .first d => annStep l d.sym (depBounds (data d.src).bounds d.bounds) d.kind
  | .second d =>
    if done then l.dropLast ++ (l.getLast?.map fun a =>
      { (a.setVariable d.sym (depBounds (data d.src).bounds d.bounds)).1 with edgeKind := d.kind }).toList
    else l ++ [freshAttr d.sym (depBounds (data d.src).bounds d.bounds) d.kind]

/-- The same for any pair of nodes. -/
def onPair (data : Nat → NodeData) (c : TaskPhase) (done : Bool) (x y : Nat) (l : List EdgeAttr) : List EdgeAttr :=
  if addingAt c = some (x, y) then phaseApp data c done l else l

/-- What jobs will do to the annotations of a pair. -/
def jobsApp (vars : VarTab) (data : Nat → NodeData) (x y : Nat) (js : List TaskJob) (l : List EdgeAttr) :
    List EdgeAttr :=
  js.foldl (fun l j =>
    match jobPhase vars data j with
    | none => l
    | some c => onPair data c false x y l) l

/-- What a task in the middle of an operation will do to the annotations of a pair. -/
def todoApp (p : TaskSt) (u x y : Nat) (l : List EdgeAttr) : List EdgeAttr :=
  jobsApp p.b.vars p.b.net.data x y (p.jobs u) (onPair p.b.net.data (p.cur u) (pushed (p.th u)) x y l)

/-- The task has still something to do between two nodes. -/
def Busy (p : TaskSt) (u x y : Nat) : Prop :=
  addingAt (p.cur u) = some (x, y) ∨
    ∃ j ∈ p.jobs u, ∃ c, jobPhase p.b.vars p.b.net.data j = some c ∧ addingAt c = some (x, y)

theorem jobsApp_skip {vars : VarTab} {data : Nat → NodeData} {x y : Nat} {js : List TaskJob}
    (h : ∀ j ∈ js, ∀ c, jobPhase vars data j = some c → addingAt c ≠ some (x, y)) (l : List EdgeAttr) :
    jobsApp vars data x y js l = l := by
  unfold jobsApp
  induction js with
  | nil => rfl
  | cons j js ih =>
    rw [List.foldl_cons]
    have h1 : (match jobPhase vars data j with
      | none => l
      | some c => onPair data c false x y l) = l := by
      cases hj : jobPhase vars data j with
      | none => rfl
      | some c =>
        simp only [onPair]
        rw [if_neg (h j List.mem_cons_self c hj)]
    rw [h1]
    exact ih fun i hi => h i (List.mem_cons_of_mem _ hi)

theorem todo_rest {p : TaskSt} {u x y : Nat} (h : ¬ Busy p u x y) (l : List EdgeAttr) : todoApp p u x y l = l := by
  unfold todoApp
  rw [onPair, if_neg (fun hc => h (.inl hc))]
  exact jobsApp_skip (fun j hj c hc ha => h (.inr ⟨j, hj, c, hc, ha⟩)) l

/-- The graph of the tasks becomes the given graph once the tasks have finished the operations they are in. -/
def EdgeSim (p : TaskSt) (net : NetGraph) : Prop :=
  ∀ u x y, (∀ v, v ≠ u → ¬ Busy p v x y) → annots net x y = todoApp p u x y (annots p.b.net x y)

theorem edgeSim_step {p p' : TaskSt} {net net' : NetGraph} {w : Nat} (h : EdgeSim p net)
    (own : ∀ u v x y, Busy p u x y → Busy p v x y → u = v)
    (hv : ∀ v, v ≠ w → ∀ x y, (Busy p' v x y ↔ Busy p v x y) ∧ ∀ l, todoApp p' v x y l = todoApp p v x y l)
    (hw : ∀ x y, annots net x y = todoApp p w x y (annots p.b.net x y) →
      annots net' x y = todoApp p' w x y (annots p'.b.net x y))
    (h0 : ∀ x y, ¬ Busy p w x y → ¬ Busy p' w x y →
      annots p'.b.net x y = annots p.b.net x y ∧ annots net' x y = annots net x y) : EdgeSim p' net' := by
  intro u x y hb
  by_cases hu : u = w
  · subst hu
    exact hw x y (h u x y fun v hv' hbz => hb v hv' ((hv v hv' x y).1.2 hbz))
  · have hbw := hb w (fun e => hu e.symm)
    rw [(hv u hu x y).2]
    by_cases hbu : Busy p u x y
    · have hbw' : ¬ Busy p w x y := fun h' => hu (own u w x y hbu h')
      obtain ⟨e1, e2⟩ := h0 x y hbw' hbw
      rw [e1, e2]
      refine h u x y fun v hv' hbz => ?_
      by_cases hvw : v = w
      · subst hvw; exact hbw' hbz
      · exact hb v hv' ((hv v hvw x y).1.2 hbz)
    · have := hw x y (h w x y fun v hv' hbz => ?_)
      · rw [this, todo_rest hbw, todo_rest hbu]
      · by_cases hvu : v = u
        · subst hvu; exact hbu hbz
        · exact hb v hvu ((hv v hv' x y).1.2 hbz)

/-! ### The edge a call returns -/

/-- The edge a call has found or made. -/
def Found (g : DGraph) : TaskPhase → Edge → Prop
  | .free, _ => True
  | .edge x y, e => e ∈ pairE g x y
  | .first d, e => ∃ rest, pairE g d.src d.tgt = e :: rest
  | .second d, e => ∃ init, pairE g d.src d.tgt = init ++ [e]

/-- What a task inside a call knows. -/
def CallOk (g : DGraph) (c : TaskPhase) (got : Option Edge) : LPhase → Prop
  | .idle => ∃ e, got = some e ∧ Found g c e
  | .lockSrc r => r = reqFor c
  | .look r => r = reqFor c ∧ r.dedup = true
  | .pushOut r => r = reqFor c ∧ (r.dedup = true → pairE g r.src r.tgt = [])
  | .unlockEarly r e => r = reqFor c ∧ Found g c e
  | .lockTgt r e => r = reqFor c ∧ Found g c e
  | .pushIn r e => r = reqFor c ∧ Found g c e
  | .unlockTgt r e => r = reqFor c ∧ Found g c e
  | .unlockSrc r e => r = reqFor c ∧ Found g c e

/-- The same for a task of a state. -/
def EdgeOk (p : TaskSt) (u : Nat) : Prop :=
  p.cur u ≠ .free → CallOk p.b.net.g (p.cur u) (p.got u) (p.th u)

theorem adding_reqFor {c : TaskPhase} (h : c ≠ .free) : addingAt c = some ((reqFor c).src, (reqFor c).tgt) := by
  cases c <;> first | rfl | exact (h rfl).elim

theorem Found.same {g g' : DGraph} {c : TaskPhase} {e : Edge}
    (hg : ∀ x y, addingAt c = some (x, y) → pairE g' x y = pairE g x y) (h : Found g c e) : Found g' c e := by
  cases c with
  | free => trivial
  | edge x y => simp only [Found] at h ⊢; rw [hg x y rfl]; exact h
  | first d => simp only [Found] at h ⊢; rw [hg d.src d.tgt rfl]; exact h
  | second d => simp only [Found] at h ⊢; rw [hg d.src d.tgt rfl]; exact h

theorem CallOk.same {g g' : DGraph} {c : TaskPhase} {got : Option Edge} {t : LPhase} (hc : c ≠ .free)
    (hg : ∀ x y, addingAt c = some (x, y) → pairE g' x y = pairE g x y) (h : CallOk g c got t) :
    CallOk g' c got t := by
  cases t with
  | idle => obtain ⟨e, h1, h2⟩ := h; exact ⟨e, h1, h2.same hg⟩
  | lockSrc r => exact h
  | look r => exact h
  | pushOut r =>
    obtain ⟨h1, h2⟩ := h
    refine ⟨h1, fun hd => ?_⟩
    rw [hg r.src r.tgt (by rw [h1]; exact adding_reqFor hc)]
    exact h2 hd
  | unlockEarly r e => exact ⟨h.1, h.2.same hg⟩
  | lockTgt r e => exact ⟨h.1, h.2.same hg⟩
  | pushIn r e => exact ⟨h.1, h.2.same hg⟩
  | unlockTgt r e => exact ⟨h.1, h.2.same hg⟩
  | unlockSrc r e => exact ⟨h.1, h.2.same hg⟩

/-- Whether the edge is there does not matter to a call that looks for one first. -/
theorem phaseApp_dedup {data : Nat → NodeData} {c : TaskPhase} (h : (reqFor c).dedup = true) (a b : Bool)
    (l : List EdgeAttr) : phaseApp data c a l = phaseApp data c b l := by
  cases c with
  | free => rfl
  | edge x y => rfl
  | first d => rfl
  | second d => cases h

/-- A new edge without annotations does not change what will come of the pair. -/
theorem phaseApp_push {data : Nat → NodeData} {c : TaskPhase} (hc : c ≠ .free) {l : List EdgeAttr}
    (h : (reqFor c).dedup = true → l = []) : phaseApp data c true (l ++ [({} : EdgeAttr)]) = phaseApp data c false l := by
  cases c with
  | free => exact (hc rfl).elim
  | edge x y =>
    have h := h rfl
    subst h
    rfl
  | first d =>
    have h := h rfl
    subst h
    simp only [phaseApp, List.nil_append, annStep, setVariable_fresh, if_pos]
    rfl
  | second d =>
    simp only [phaseApp, if_pos, List.dropLast_concat, List.getLast?_append, Bool.false_eq_true, if_false]
    simp [setVariable_fresh, freshAttr]

/-- What a step inside a call does. -/
structure LockRes (p p' : TaskSt) (u : Nat) : Prop where
  out : OutOk p'.b.net.g
  edge : CallOk p'.b.net.g (p.cur u) (p'.got u) (p'.th u)
  others : ∀ x y, addingAt (p.cur u) ≠ some (x, y) →
    pairE p'.b.net.g x y = pairE p.b.net.g x y ∧ annots p'.b.net x y = annots p.b.net x y
  pair : ∀ x y, addingAt (p.cur u) = some (x, y) →
    phaseApp p.b.net.data (p.cur u) (pushed (p'.th u)) (annots p'.b.net x y) =
      phaseApp p.b.net.data (p.cur u) (pushed (p.th u)) (annots p.b.net x y)

theorem setAt_eta {α : Type} (f : Nat → α) (u : Nat) (a : α) : setAt f u a = fun v => if v = u then a else f v := rfl

/-- A step that makes no edge. -/
theorem lock_quiet {p : TaskSt} {u : Nat} {g' : DGraph} {attr' : Nat → EdgeAttr} {owner' : Nat → Option Nat}
    {th' : Nat → LPhase} {got' : Nat → Option Edge} (h : OutOk p.b.net.g)
    (ho : ∀ x, (g'.obj x).outE = (p.b.net.g.obj x).outE) (hi : ∀ x, (g'.obj x).index = (p.b.net.g.obj x).index)
    (he : g'.nextEdge = p.b.net.g.nextEdge) (hn : g'.nextNode = p.b.net.g.nextNode)
    (ha : attr' = if g'.nextEdge = p.b.net.g.nextEdge then p.b.net.attr
          else setAt p.b.net.attr p.b.net.g.nextEdge {})
    (hc : p.cur u ≠ .free) (hcall : CallOk p.b.net.g (p.cur u) (got' u) (th' u))
    (hpu : pushed (th' u) = pushed (p.th u) ∨ (reqFor (p.cur u)).dedup = true) :
    LockRes p { p with
      b := { p.b with net := { p.b.net with g := g', attr := attr' } }
      owner := owner', th := th', got := got' } u := by
  rw [if_pos he] at ha
  subst ha
  have hp := pair_same (g := p.b.net.g) (g' := g') ho
  have hann : ∀ x y, annots ({ p.b.net with g := g', attr := p.b.net.attr } : NetGraph) x y =
      annots p.b.net x y := by
    intro x y
    rw [annots_pair, annots_pair]
    show (pairE g' x y).map _ = _
    rw [hp]
  refine ⟨h.same ho hi he (by rw [hn]; exact Nat.le_refl _), hcall.same hc fun x y _ => hp x y,
    fun x y _ => ⟨hp x y, hann x y⟩, fun x y _ => ?_⟩
  show phaseApp _ _ (pushed (th' u)) (annots ({ p.b.net with g := g', attr := p.b.net.attr } : NetGraph) x y) = _
  rw [hann]
  rcases hpu with hpu | hpu
  · rw [hpu]
  · exact phaseApp_dedup hpu _ _ _

theorem Found.made {g g' : DGraph} {c : TaskPhase} {e : Edge} (hc : c ≠ .free)
    (hp : pairE g' (reqFor c).src (reqFor c).tgt = pairE g (reqFor c).src (reqFor c).tgt ++ [e])
    (h : (reqFor c).dedup = true → pairE g (reqFor c).src (reqFor c).tgt = []) : Found g' c e := by
  cases c with
  | free => exact (hc rfl).elim
  | edge x y =>
    simp only [reqFor] at hp
    simp only [Found]
    rw [hp]
    simp
  | first d =>
    have h := h rfl
    simp only [reqFor] at hp h
    simp only [Found]
    rw [hp, h]
    exact ⟨[], rfl⟩
  | second d =>
    simp only [reqFor] at hp
    exact ⟨_, hp⟩

theorem Found.head {g : DGraph} {c : TaskPhase} {e : Edge} (hc : c ≠ .free) (hd : (reqFor c).dedup = true)
    (h : (pairE g (reqFor c).src (reqFor c).tgt).head? = some e) : Found g c e := by
  have hcons : ∀ l : List Edge, l.head? = some e → ∃ rest, l = e :: rest := by
    intro l hl
    cases l with
    | nil => cases hl
    | cons a l => cases hl; exact ⟨l, rfl⟩
  obtain ⟨rest, hr⟩ := hcons _ h
  cases c with
  | free => exact (hc rfl).elim
  | edge x y =>
    simp only [reqFor] at hr
    simp only [Found]
    rw [hr]
    simp
  | first d =>
    simp only [reqFor] at hr
    exact ⟨rest, hr⟩
  | second d => cases hd

theorem lockStep_res {p p' : TaskSt} {u : Nat} (h : OutOk p.b.net.g) (hc : p.cur u ≠ .free)
    (hlt : ∀ x y, addingAt (p.cur u) = some (x, y) → x < p.b.net.g.nextNode) (hth : p.th u ≠ .idle)
    (hk : EdgeOk p u) (hs : p.lockStep u = some p') : LockRes p p' u := by
  have hk := hk hc
  unfold TaskSt.lockStep at hs
  split at hs
  · cases hs
  · rename_i l hl
    cases hs
    unfold LSt.step at hl
    rw [show p.locks.th u = p.th u from rfl] at hl
    cases ht : p.th u with
    | idle => exact (hth ht).elim
    | lockSrc r =>
      rw [ht] at hl hk
      simp only [LSt.stepAt] at hl
      have hk : r = reqFor (p.cur u) := hk
      split at hl
      · cases hl
      · cases hl
        refine lock_quiet h (fun _ => rfl) (fun _ => rfl) rfl rfl rfl hc ?_ ?_
        · simp only [LSt.goto, LSt.own, if_pos]
          split
          · exact ⟨hk, by assumption⟩
          · exact ⟨hk, fun hd => by contradiction⟩
        · refine .inl ?_
          simp only [LSt.goto, LSt.own, if_pos, ht]
          split <;> rfl
    | look r =>
      rw [ht] at hl hk
      obtain ⟨hk, hd⟩ := hk
      have hlook := h.look r.src r.tgt
      simp only [LSt.stepAt] at hl
      rw [show p.locks.g = p.b.net.g from rfl] at hl
      split at hl
      · rename_i e he
        cases hl
        refine lock_quiet h (fun _ => rfl) (fun _ => rfl) rfl rfl rfl hc ?_ (.inr (by rw [← hk]; exact hd))
        simp only [LSt.goto, if_pos]
        refine ⟨hk, Found.head hc (by rw [← hk]; exact hd) ?_⟩
        rw [← hk, ← hlook, he]
      · rename_i he
        cases hl
        refine lock_quiet h (fun _ => rfl) (fun _ => rfl) rfl rfl rfl hc ?_ (.inr (by rw [← hk]; exact hd))
        simp only [LSt.goto, if_pos]
        refine ⟨hk, fun _ => ?_⟩
        rw [hlook] at he
        exact List.head?_eq_none_iff.1 he
    | pushOut r =>
      rw [ht] at hl hk
      obtain ⟨hk, hd⟩ := hk
      simp only [LSt.stepAt] at hl
      cases hl
      have hadd := adding_reqFor hc
      rw [← hk] at hadd
      have hlt := hlt r.src r.tgt hadd
      have hpush := h.push (t := r.tgt) hlt
      have hpair := pair_push p.b.net.g r.src r.tgt
      have hfound : Found (pushG p.b.net.g r.src r.tgt) (p.cur u) ⟨p.b.net.g.nextEdge, r.src, r.tgt⟩ := by
        refine Found.made (g := p.b.net.g) hc ?_ ?_
        · rw [← hk, hpair, if_pos ⟨rfl, rfl⟩]
        · rw [← hk]; exact hd
      have hann := annots_push (net' := { p.b.net with
          g := pushG p.b.net.g r.src r.tgt
          attr := if (pushG p.b.net.g r.src r.tgt).nextEdge = p.b.net.g.nextEdge then p.b.net.attr
            else setAt p.b.net.attr p.b.net.g.nextEdge {} }) h (s := r.src) (t := r.tgt) (fun x y => rfl)
        (by
          dsimp only
          rw [if_neg (by simp [pushG])]
          rfl)
      refine ⟨hpush, ?_, ?_, ?_⟩
      · show CallOk (pushG p.b.net.g r.src r.tgt) _ _ _
        simp only [LSt.goto, if_pos]
        repeat' split
        all_goals exact ⟨hk, hfound⟩
      · intro x y hxy
        have hne : ¬ (r.src = x ∧ r.tgt = y) := by
          rintro ⟨e1, e2⟩
          exact hxy (by rw [← e1, ← e2]; exact hadd)
        refine ⟨?_, ?_⟩
        · show pairE (pushG p.b.net.g r.src r.tgt) x y = _
          rw [hpair, if_neg hne, List.append_nil]
        · refine (hann x y).trans ?_
          rw [if_neg hne, List.append_nil]
      · intro x y hxy
        rw [hadd] at hxy
        cases hxy
        have hpt : pushed ((({ p.locks with g := pushG p.b.net.g r.src r.tgt } : LSt).goto u
            (if r.src = r.tgt then .pushIn r ⟨p.b.net.g.nextEdge, r.src, r.tgt⟩
            else if r.dedup then .lockTgt r ⟨p.b.net.g.nextEdge, r.src, r.tgt⟩
            else .unlockEarly r ⟨p.b.net.g.nextEdge, r.src, r.tgt⟩)).th u) = true := by
          simp only [LSt.goto, if_pos]
          repeat' split
          all_goals rfl
        refine Eq.trans (congr (congrArg (phaseApp _ _) hpt) (hann r.src r.tgt)) ?_
        rw [if_pos ⟨rfl, rfl⟩, ht]
        refine phaseApp_push hc fun hdd => ?_
        rw [annots_pair, hd (by rw [hk]; exact hdd)]
        rfl
    | unlockEarly r e =>
      rw [ht] at hl hk
      simp only [LSt.stepAt] at hl
      cases hl
      refine lock_quiet h (fun _ => rfl) (fun _ => rfl) rfl rfl rfl hc ?_ (.inl ?_)
      · simp only [LSt.goto, LSt.own, if_pos]
        exact hk
      · simp only [LSt.goto, LSt.own, if_pos, ht]; rfl
    | lockTgt r e =>
      rw [ht] at hl hk
      simp only [LSt.stepAt] at hl
      split at hl
      · cases hl
      · cases hl
        refine lock_quiet h (fun _ => rfl) (fun _ => rfl) rfl rfl rfl hc ?_ (.inl ?_)
        · simp only [LSt.goto, LSt.own, if_pos]
          exact hk
        · simp only [LSt.goto, LSt.own, if_pos, ht]; rfl
    | pushIn r e =>
      rw [ht] at hl hk
      simp only [LSt.stepAt] at hl
      cases hl
      refine lock_quiet h ?_ ?_ rfl rfl rfl hc ?_ (.inl ?_)
      · intro x
        show ((p.b.net.g.upd r.tgt fun n => pushIn n e).obj x).outE = _
        rw [upd_obj]
        split
        · subst_vars; rfl
        · rfl
      · intro x
        show ((p.b.net.g.upd r.tgt fun n => pushIn n e).obj x).index = _
        rw [upd_obj]
        split
        · subst_vars; rfl
        · rfl
      · simp only [LSt.goto, if_pos]
        split <;> exact hk
      · simp only [LSt.goto, if_pos, ht]
        split <;> rfl
    | unlockTgt r e =>
      rw [ht] at hl hk
      simp only [LSt.stepAt] at hl
      cases hl
      split
      · refine lock_quiet h (fun _ => rfl) (fun _ => rfl) rfl rfl rfl hc ?_ (.inl ?_)
        · simp only [LSt.goto, LSt.own, if_pos]
          exact hk
        · simp only [LSt.goto, LSt.own, if_pos, ht]; rfl
      · refine lock_quiet h (fun _ => rfl) (fun _ => rfl) rfl rfl rfl hc ?_ (.inl ?_)
        · simp only [LSt.ret, LSt.goto, LSt.own, if_pos, setAt]
          exact ⟨e, rfl, hk.2⟩
        · simp only [LSt.ret, LSt.goto, LSt.own, if_pos, ht]; rfl
    | unlockSrc r e =>
      rw [ht] at hl hk
      simp only [LSt.stepAt] at hl
      cases hl
      refine lock_quiet h (fun _ => rfl) (fun _ => rfl) rfl rfl rfl hc ?_ (.inl ?_)
      · simp only [LSt.ret, LSt.goto, LSt.own, if_pos, setAt]
        exact ⟨e, rfl, hk.2⟩
      · simp only [LSt.ret, LSt.goto, LSt.own, if_pos, ht]; rfl

/-! ### Steps inside an operation -/

/-- What a step of task `u` inside an operation does. -/
structure StepRes (p p' : TaskSt) (u : Nat) : Prop where
  keep : ∀ v, v ≠ u → p'.cur v = p.cur v ∧ p'.th v = p.th v ∧ p'.jobs v = p.jobs v ∧ p'.got v = p.got v
  jobs : ∀ j ∈ p'.jobs u, j ∈ p.jobs u
  ops : p'.ops = p.ops
  envs : p'.envs = p.envs
  bufs : p'.bufs = p.bufs
  failed : p'.failed = p.failed
  vars : p'.b.vars = p.b.vars
  trk : p'.b.trk = p.b.trk
  drv : p'.b.drv = p.b.drv
  queue : p'.b.queue = p.b.queue
  data : p'.b.net.data = p.b.net.data
  nodes : p'.b.net.g.nodes = p.b.net.g.nodes
  next : p'.b.net.g.nextNode = p.b.net.g.nextNode
  out : OutOk p'.b.net.g
  edge : EdgeOk p' u
  others : ∀ x y, addingAt (p.cur u) ≠ some (x, y) →
    pairE p'.b.net.g x y = pairE p.b.net.g x y ∧ annots p'.b.net x y = annots p.b.net x y
  todo : ∀ x y, todoApp p' u x y (annots p'.b.net x y) = todoApp p u x y (annots p.b.net x y)

theorem jobsApp_cons (vars : VarTab) (data : Nat → NodeData) (x y : Nat) (j : TaskJob) (js : List TaskJob)
    (l : List EdgeAttr) : jobsApp vars data x y (j :: js) l = jobsApp vars data x y js
      (match jobPhase vars data j with
      | none => l
      | some c => onPair data c false x y l) := rfl

theorem onPair_free (data : Nat → NodeData) (b : Bool) (x y : Nat) (l : List EdgeAttr) :
    onPair data .free b x y l = l := rfl

theorem begin_res {u : Nat} {j : TaskJob} {js : List TaskJob} {p : TaskSt} (h : OutOk p.b.net.g)
    (hc : p.cur u = .free) (hj : p.jobs u = j :: js) :
    StepRes p (({ p with jobs := setAt p.jobs u js } : TaskSt).begin u j) u := by
  rw [begin_eq]
  dsimp only
  cases hp : jobPhase p.b.vars p.b.net.data j with
  | none =>
    dsimp only
    refine ⟨fun v hv => ⟨rfl, rfl, setAt_ne _ _ hv, rfl⟩, ?_, rfl, rfl, rfl, rfl, rfl, rfl, rfl, rfl, rfl, rfl, rfl, h,
      fun hne => (hne hc).elim, fun _ _ _ => ⟨rfl, rfl⟩, fun x y => ?_⟩
    · intro i hi
      dsimp only at hi
      rw [setAt_same] at hi
      rw [hj]; exact List.mem_cons_of_mem _ hi
    · unfold todoApp
      dsimp only
      rw [setAt_same, hj, hc, jobsApp_cons, hp]
  | some c =>
    dsimp only
    refine ⟨fun v hv => ⟨setAt_ne _ _ hv, setAt_ne _ _ hv, setAt_ne _ _ hv, setAt_ne _ _ hv⟩, ?_, rfl, rfl, rfl, rfl,
      rfl, rfl, rfl, rfl, rfl, rfl, rfl, h, fun hne => ?_, fun _ _ _ => ⟨rfl, rfl⟩, fun x y => ?_⟩
    · intro i hi
      rw [show (TaskSt.call { p with jobs := setAt p.jobs u js } u c (reqFor c)).jobs u = js from setAt_same _ _ _] at hi
      rw [hj]; exact List.mem_cons_of_mem _ hi
    · show CallOk p.b.net.g (setAt p.cur u c u) (setAt p.got u none u) (setAt p.th u (.lockSrc (reqFor c)) u)
      rw [setAt_same, setAt_same, setAt_same]
      rfl
    · show jobsApp p.b.vars p.b.net.data x y (setAt p.jobs u js u)
        (onPair p.b.net.data (setAt p.cur u c u) (pushed (setAt p.th u (.lockSrc (reqFor c)) u)) x y _) = _
      unfold todoApp
      rw [setAt_same, setAt_same, setAt_same, hj, hc, jobsApp_cons, hp]
      rfl

theorem lock_res {p p' : TaskSt} {u : Nat} (h : OutOk p.b.net.g) (hc : p.cur u ≠ .free)
    (hlt : ∀ x y, addingAt (p.cur u) = some (x, y) → x < p.b.net.g.nextNode) (hth : p.th u ≠ .idle)
    (hk : EdgeOk p u) (hs : p.lockStep u = some p') : StepRes p p' u := by
  have hr := lockStep_res h hc hlt hth hk hs
  unfold TaskSt.lockStep at hs
  split at hs
  · cases hs
  · rename_i l hl
    have hnodes : l.g.nodes = p.b.net.g.nodes := by
      have : ∀ t, p.locks.stepAt u t = some l → l.g.nodes = p.locks.g.nodes := by
        intro t ht
        cases t <;> simp only [LSt.stepAt] at ht
        all_goals (try split at ht)
        all_goals (first | (cases ht; done) | (cases ht; rfl) | (cases ht; split <;> rfl))
      exact this _ hl
    have hnext : l.g.nextNode = p.b.net.g.nextNode := step_next hl
    have hloc := (step_local hl).1
    cases hs
    refine ⟨fun v hv => ⟨rfl, (hloc v hv).1, rfl, setAt_ne _ _ hv⟩, fun _ h => h, rfl, rfl, rfl, rfl, rfl, rfl, rfl, rfl,
      rfl, hnodes, hnext, hr.out, fun _ => hr.edge, hr.others, fun x y => ?_⟩
    unfold todoApp
    refine congrArg (jobsApp p.b.vars p.b.net.data x y (p.jobs u)) ?_
    unfold onPair
    by_cases hxy : addingAt (p.cur u) = some (x, y)
    · have := hr.pair x y hxy
      dsimp only at this ⊢
      rw [if_pos hxy, if_pos hxy]
      exact this
    · have := (hr.others x y hxy).2
      dsimp only at this ⊢
      rw [if_neg hxy, if_neg hxy]
      exact this

/-- A task leaves `addDependency`, with new annotations of an edge. -/
theorem leave_res {p : TaskSt} {u : Nat} {attr' : Nat → EdgeAttr} (h : OutOk p.b.net.g)
    (ho : ∀ x y, addingAt (p.cur u) ≠ some (x, y) →
      annots ({ p.b.net with attr := attr' } : NetGraph) x y = annots p.b.net x y)
    (hp : ∀ x y, addingAt (p.cur u) = some (x, y) →
      annots ({ p.b.net with attr := attr' } : NetGraph) x y =
        phaseApp p.b.net.data (p.cur u) (pushed (p.th u)) (annots p.b.net x y)) :
    StepRes p { p with
      b := { p.b with net := { p.b.net with attr := attr' } }
      cur := setAt p.cur u .free } u := by
  refine ⟨fun v hv => ⟨setAt_ne _ _ hv, rfl, rfl, rfl⟩, fun _ h => h, rfl, rfl, rfl, rfl, rfl, rfl, rfl, rfl, rfl, rfl,
    rfl, h, fun hne => (hne (setAt_same _ _ _)).elim, fun x y hxy => ⟨rfl, ho x y hxy⟩, fun x y => ?_⟩
  unfold todoApp
  refine congrArg (jobsApp p.b.vars p.b.net.data x y (p.jobs u)) ?_
  show onPair p.b.net.data (setAt p.cur u .free u) _ x y _ = _
  rw [setAt_same, onPair_free, onPair]
  by_cases hxy : addingAt (p.cur u) = some (x, y)
  · rw [if_pos hxy]; exact hp x y hxy
  · rw [if_neg hxy]; exact ho x y hxy

theorem back_res {p : TaskSt} {u : Nat} (h : OutOk p.b.net.g) (hc : p.cur u ≠ .free) (hth : p.th u = .idle)
    (hk : EdgeOk p u) : StepRes p (p.back u) u := by
  have hk := hk hc
  rw [hth] at hk
  obtain ⟨e, he, hf⟩ := hk
  unfold TaskSt.back
  cases hcur : p.cur u with
  | free => exact (hc hcur).elim
  | edge a b =>
    rw [he]
    have := leave_res (p := p) (u := u) (attr' := p.b.net.attr) h (fun _ _ _ => rfl) (fun x y hxy => ?_)
    · exact this
    · rw [hcur] at hxy hf ⊢
      cases hxy
      show annots p.b.net a b = _
      rw [annots_pair]
      simp only [Found] at hf
      cases hl : pairE p.b.net.g a b with
      | nil => rw [hl] at hf; cases hf
      | cons e' l => rfl
  | first d =>
    rw [he]
    rw [hcur] at hf
    obtain ⟨rest, hr⟩ := hf
    have hmem : e ∈ pairE p.b.net.g d.src d.tgt := by rw [hr]; exact List.mem_cons_self
    dsimp only
    split
    · rename_i hok
      have := leave_res (p := p) (u := u)
        (attr' := setAt p.b.net.attr e.id { ((p.b.net.attr e.id).setVariable d.sym
          (depBounds (p.b.net.data d.src).bounds d.bounds)).1 with edgeKind := d.kind }) h ?_ ?_
      · exact this
      · intro x y hxy
        refine annots_other h hmem (by rfl) (by rfl) fun hh => hxy ?_
        rw [hcur]
        exact congrArg some (Prod.ext hh.1 hh.2)
      · intro x y hxy
        rw [hcur] at hxy ⊢
        cases hxy
        obtain ⟨h1, h2⟩ := annots_first (net' := { p.b.net with
          attr := setAt p.b.net.attr e.id { ((p.b.net.attr e.id).setVariable d.sym
          (depBounds (p.b.net.data d.src).bounds d.bounds)).1 with edgeKind := d.kind } }) h hr (by rfl) (by rfl)
        rw [h1, h2]
        simp only [phaseApp, annStep]
        rw [if_pos hok]
    · rename_i hok
      refine ⟨fun v hv => ⟨setAt_ne _ _ hv, setAt_ne _ _ hv, rfl, setAt_ne _ _ hv⟩, fun _ h => h, rfl, rfl, rfl, rfl, rfl,
        rfl, rfl, rfl, rfl, rfl, rfl, h, fun hne => ?_, fun _ _ _ => ⟨rfl, rfl⟩, fun x y => ?_⟩
      · show CallOk p.b.net.g (setAt p.cur u (.second d) u) (setAt p.got u none u)
          (setAt p.th u (.lockSrc ⟨false, d.src, d.tgt⟩) u)
        rw [setAt_same, setAt_same, setAt_same]
        rfl
      · unfold todoApp
        refine congrArg (jobsApp p.b.vars p.b.net.data x y (p.jobs u)) ?_
        show onPair p.b.net.data (setAt p.cur u (.second d) u)
          (pushed (setAt p.th u (.lockSrc ⟨false, d.src, d.tgt⟩) u)) x y _ = _
        rw [setAt_same, setAt_same, hcur]
        unfold onPair
        by_cases hxy : d.src = x ∧ d.tgt = y
        · obtain ⟨rfl, rfl⟩ := hxy
          rw [if_pos (show addingAt (.second d) = some (d.src, d.tgt) from rfl),
            if_pos (show addingAt (.first d) = some (d.src, d.tgt) from rfl)]
          show phaseApp p.b.net.data (.second d) false (annots p.b.net d.src d.tgt) = _
          simp only [phaseApp]
          rw [annots_pair, hr]
          simp only [List.map_cons, annStep]
          rw [if_neg hok]
          rfl
        · have hne : addingAt (.second d) ≠ some (x, y) := fun hh => hxy (by cases hh; exact ⟨rfl, rfl⟩)
          have hne' : addingAt (.first d) ≠ some (x, y) := fun hh => hxy (by cases hh; exact ⟨rfl, rfl⟩)
          rw [if_neg hne, if_neg hne']
          rfl
  | second d =>
    rw [he]
    rw [hcur] at hf
    obtain ⟨init, hr⟩ := hf
    have hmem : e ∈ pairE p.b.net.g d.src d.tgt := by rw [hr]; simp
    have := leave_res (p := p) (u := u)
      (attr' := setAt p.b.net.attr e.id { ((p.b.net.attr e.id).setVariable d.sym
        (depBounds (p.b.net.data d.src).bounds d.bounds)).1 with edgeKind := d.kind }) h ?_ ?_
    · exact this
    · intro x y hxy
      refine annots_other h hmem (by rfl) (by rfl) fun hh => hxy ?_
      rw [hcur]
      exact congrArg some (Prod.ext hh.1 hh.2)
    · intro x y hxy
      rw [hcur] at hxy ⊢
      cases hxy
      obtain ⟨h1, h2⟩ := annots_last (net' := { p.b.net with
        attr := setAt p.b.net.attr e.id { ((p.b.net.attr e.id).setVariable d.sym
        (depBounds (p.b.net.data d.src).bounds d.bounds)).1 with edgeKind := d.kind } }) h hr (by rfl) (by rfl)
      rw [h1, h2, hth]
      simp [phaseApp, pushed]

end Verif.Proofs

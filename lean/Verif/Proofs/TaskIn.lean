import Verif.Proofs.TaskAlike

/-! The in-edges of the nodes in the parallel Phase 2 (C98). -/
namespace Verif.Proofs
open Verif.Model Verif.Spec

def pairIn (g : DGraph) (x y : Nat) : List Edge := (g.obj y).inE.filter fun e => e.src == x

/-- The edge a thread has put on the out list of its source only. -/
def unjoined : LPhase → Option (Req × Edge)
  | .unlockEarly r e | .lockTgt r e | .pushIn r e => some (r, e)
  | _ => none

/-- The part of the pair that is missing in the in list because of one thread. -/
def lagAt (t : LPhase) (x y : Nat) : List Edge :=
  match unjoined t with
  | some (r, e) => if r.src = x ∧ r.tgt = y then [e] else []
  | none => []

structure InLag (p : TaskSt) : Prop where
  lag : ∀ u x y, (∀ v, v ≠ u → lagAt (p.th v) x y = []) →
    pairE p.b.net.g x y = pairIn p.b.net.g x y ++ lagAt (p.th u) x y
  ends : ∀ u r e, unjoined (p.th u) = some (r, e) → e.src = r.src ∧ e.tgt = r.tgt
  out : ∀ x, p.b.net.g.nextNode ≤ x → (p.b.net.g.obj x).outE = []
  inn : ∀ x, p.b.net.g.nextNode ≤ x → (p.b.net.g.obj x).inE = []

variable {D : Design} {N K : Nat} {p p' : TaskSt} {u : Nat}

theorem unjoined_req {t : LPhase} {r : Req} {e : Edge} (h : unjoined t = some (r, e)) : reqOf t = some r := by
  cases t <;> cases h <;> rfl

theorem lag_adding (h : TaskInv D N K p) {v x y : Nat} (hl : lagAt (p.th v) x y ≠ []) :
    addingAt (p.cur v) = some (x, y) := by
  unfold lagAt at hl
  split at hl
  · rename_i r e he
    split at hl
    · rename_i hxy
      rw [h.req v r (unjoined_req he), hxy.1, hxy.2]
    · exact (hl rfl).elim
  · exact (hl rfl).elim

/-- A step of one thread inside its call. -/
theorem inLag_step (h : InLag p) (hi : TaskInv D N K p) {x y : Nat} (hxy : addingAt (p.cur u) = some (x, y))
    (hth : ∀ v, v ≠ u → p'.th v = p.th v)
    (hreq : ∀ r e, unjoined (p'.th u) = some (r, e) → (r.src = x ∧ r.tgt = y) ∧ e.src = r.src ∧ e.tgt = r.tgt)
    (hnext : p'.b.net.g.nextNode = p.b.net.g.nextNode)
    (ho : ∀ z, z ≠ x → (p'.b.net.g.obj z).outE = (p.b.net.g.obj z).outE)
    (hn : ∀ z, z ≠ y → (p'.b.net.g.obj z).inE = (p.b.net.g.obj z).inE)
    (hop : ∀ z, z ≠ y → pairE p'.b.net.g x z = pairE p.b.net.g x z)
    (hnp : ∀ z, z ≠ x → pairIn p'.b.net.g z y = pairIn p.b.net.g z y)
    (hp : pairE p.b.net.g x y = pairIn p.b.net.g x y ++ lagAt (p.th u) x y →
      pairE p'.b.net.g x y = pairIn p'.b.net.g x y ++ lagAt (p'.th u) x y) : InLag p' := by
  have hlt := allowed_lt hi.frame (hi.cur u x y hxy)
  have hlt1 : x < p.b.net.g.nextNode := hlt.1
  have hlt2 : y < p.b.net.g.nextNode := hlt.2
  have hu : ∀ a b, ¬ (a = x ∧ b = y) → lagAt (p.th u) a b = [] ∧ lagAt (p'.th u) a b = [] := by
    intro a b hab
    constructor
    · refine Classical.byContradiction fun hc => hab ?_
      have := lag_adding hi hc
      rw [hxy] at this
      cases this
      exact ⟨rfl, rfl⟩
    · unfold lagAt
      split
      · rename_i r e he
        rw [if_neg]
        rintro ⟨rfl, rfl⟩
        exact hab ⟨(hreq r e he).1.1, (hreq r e he).1.2⟩
      · rfl
  refine ⟨?_, ?_, ?_, ?_⟩
  · intro w a b hw
    by_cases hab : a = x ∧ b = y
    · obtain ⟨rfl, rfl⟩ := hab
      have hv : ∀ v, v ≠ u → lagAt (p.th v) a b = [] := by
        intro v hv
        refine Classical.byContradiction fun hc => hv ?_
        exact allowed_one hi.frame (hi.cur v _ _ (lag_adding hi hc)) (hi.cur u _ _ hxy)
      have h1 := hp (h.lag u a b hv)
      by_cases hwu : w = u
      · rw [hwu]; exact h1
      · rw [h1, hw u fun e => hwu e.symm, hth w hwu, hv w hwu]
    · have h1 : pairE p'.b.net.g a b = pairE p.b.net.g a b := by
        by_cases hax : a = x
        · rw [hax]; exact hop b fun e => hab ⟨hax, e⟩
        · unfold pairE; rw [ho a hax]
      have h2 : pairIn p'.b.net.g a b = pairIn p.b.net.g a b := by
        by_cases hby : b = y
        · rw [hby]; exact hnp a fun e => hab ⟨e, hby⟩
        · unfold pairIn; rw [hn b hby]
      rw [h1, h2]
      have h3 : lagAt (p'.th w) a b = lagAt (p.th w) a b := by
        by_cases hwu : w = u
        · rw [hwu, (hu a b hab).1, (hu a b hab).2]
        · rw [hth w hwu]
      rw [h3]
      refine h.lag w a b fun v hv => ?_
      by_cases hvu : v = u
      · rw [hvu]; exact (hu a b hab).1
      · rw [← hth v hvu]; exact hw v hv
  · intro v r e he
    by_cases hv : v = u
    · subst hv; exact (hreq r e he).2
    · rw [hth v hv] at he; exact h.ends v r e he
  · intro z hz
    rw [hnext] at hz
    rw [ho z (by omega)]
    exact h.out z hz
  · intro z hz
    rw [hnext] at hz
    rw [hn z (by omega)]
    exact h.inn z hz

/-- Nothing happened to the graph, and the thread has nothing to join before and after. -/
theorem inLag_same (h : InLag p) (hth : ∀ v, lagAt (p'.th v) = lagAt (p.th v))
    (he : ∀ v, unjoined (p'.th v) = unjoined (p.th v)) (hg : p'.b.net.g = p.b.net.g) : InLag p' := by
  refine ⟨?_, ?_, by rw [hg]; exact h.out, by rw [hg]; exact h.inn⟩
  · intro u x y hu
    rw [hg, hth]
    exact h.lag u x y fun v hv => by rw [← hth]; exact hu v hv
  · intro v r e hv
    rw [he] at hv
    exact h.ends v r e hv

theorem inLag_th (h : InLag p) {t : LPhase} (ht : unjoined (p.th u) = none) (ht' : unjoined t = none)
    (hth : p'.th = setAt p.th u t) (hg : p'.b.net.g = p.b.net.g) : InLag p' := by
  have he : ∀ v, unjoined (p'.th v) = unjoined (p.th v) := by
    intro v
    rw [hth]
    by_cases hv : v = u
    · subst hv; rw [setAt_same, ht, ht']
    · rw [setAt_ne _ _ hv]
  exact inLag_same h (fun v => by funext x y; simp only [lagAt, he]) he hg

theorem inLag_call (h : InLag p) {q : TaskSt} (ht : p.th u = .idle) {c : TaskPhase} {r : Req}
    (hg : q.b.net.g = p.b.net.g) (hth : q.th = p.th) : InLag (q.call u c r) :=
  inLag_th (u := u) (t := .lockSrc r) h (by rw [ht]; rfl) rfl (by unfold TaskSt.call; rw [← hth]) hg

theorem inLag_begin (h : InLag p) (hc : p.th u = .idle) {js : List TaskJob} (j : TaskJob) :
    InLag (({ p with jobs := setAt p.jobs u js } : TaskSt).begin u j) := by
  have hs : InLag ({ p with jobs := setAt p.jobs u js } : TaskSt) := inLag_same h (fun _ => rfl) (fun _ => rfl) rfl
  cases j with
  | plain x y => exact inLag_call h hc rfl rfl
  | dep d => exact inLag_call h hc rfl rfl
  | into x sym c ref b own =>
    simp only [TaskSt.begin]
    split
    · exact hs
    · exact inLag_call h hc rfl rfl
  | outOf sym c y ref b =>
    simp only [TaskSt.begin]
    split
    · exact hs
    · exact inLag_call h hc rfl rfl

theorem inLag_back (h : InLag p) (hc : p.th u = .idle) : InLag (p.back u) := by
  unfold TaskSt.back
  split
  · dsimp only
    split
    · exact inLag_same h (fun _ => rfl) (fun _ => rfl) rfl
    · exact inLag_call h hc rfl rfl
  · exact inLag_same h (fun _ => rfl) (fun _ => rfl) rfl
  · exact inLag_same h (fun _ => rfl) (fun _ => rfl) rfl

/-- The first step of an operation makes at most a node. -/
theorem start_net {s s' : Bld} {env env' : List Nat} {a : BAct} {js : List TaskJob}
    (h : s.start D env a = .ok (s', env', js)) : s'.net = s.net ∨ ∃ d, s.net.call (.addNode d) = some s'.net := by
  cases a with
  | node d =>
    simp only [Bld.start, Bld.act] at h
    split at h
    · cases h
    · rename_i x hx
      split at hx
      · cases hx
      · rename_i n hn
        cases hx
        cases h
        exact .inr ⟨d, hn⟩
  | edge i j =>
    simp only [Bld.start] at h
    split at h <;> cases h
    exact .inl rfl
  | dep d =>
    simp only [Bld.start] at h
    split at h <;> cases h
    exact .inl rfl
  | mread r b i =>
    simp only [Bld.start] at h
    split at h <;> cases h
    exact .inl rfl
  | hook sym b l =>
    simp only [Bld.start] at h
    split at h <;> cases h
    exact .inl rfl
  | extra sym b l =>
    simp only [Bld.start] at h
    split at h <;> cases h
    exact .inl rfl
  | read sym b i k =>
    simp only [Bld.start, Bld.act] at h
    split at h
    · cases h
    · rename_i x hx
      split at hx <;> cases hx
      cases h
      exact .inl rfl
  | drive sym b l =>
    simp only [Bld.start, Bld.act] at h
    split at h
    · cases h
    · rename_i x hx
      split at hx
      · cases hx
      · split at hx <;> cases hx
        cases h
        exact .inl rfl
  | reg sym b i =>
    simp only [Bld.start, Bld.act] at h
    split at h
    · cases h
    · rename_i x hx
      split at hx <;> cases hx
      cases h
      exact .inl rfl
  | fault f =>
    simp only [Bld.start, Bld.act] at h
    cases h

theorem inLag_take (h : InLag p) {a : BAct} {as : List BAct} : InLag (p.take D u a as) := by
  unfold TaskSt.take
  split
  · exact inLag_same h (fun _ => rfl) (fun _ => rfl) rfl
  · rename_i s' env' js hst
    rcases start_net hst with hn | ⟨d, hd⟩
    · exact inLag_same h (fun _ => rfl) (fun _ => rfl) (by show s'.net.g = _; rw [hn])
    · have hg : s'.net.g = p.b.net.g.addNode.1 := by
        simp only [NetGraph.call, NetOp.gop, DGraph.call] at hd
        rw [← Option.some.inj hd]
      have hobj : ∀ x, (s'.net.g.obj x).outE = (p.b.net.g.obj x).outE ∧ (s'.net.g.obj x).inE = (p.b.net.g.obj x).inE := by
        intro x
        rw [hg]
        simp only [DGraph.addNode, upd_obj]
        by_cases hx : x = p.b.net.g.nextNode
        · rw [if_pos hx, h.out x (by omega), h.inn x (by omega)]
          exact ⟨rfl, rfl⟩
        · rw [if_neg hx]; exact ⟨rfl, rfl⟩
      refine ⟨?_, h.ends, ?_, ?_⟩
      · intro w x y hw
        show pairE s'.net.g x y = pairIn s'.net.g x y ++ _
        unfold pairE pairIn
        rw [(hobj x).1, (hobj y).2]
        exact h.lag w x y hw
      · intro x hx
        show (s'.net.g.obj x).outE = []
        rw [(hobj x).1]
        have hx : s'.net.g.nextNode ≤ x := hx
        rw [hg] at hx
        exact h.out x (Nat.le_trans (Nat.le_succ _) hx)
      · intro x hx
        show (s'.net.g.obj x).inE = []
        rw [(hobj x).2]
        have hx : s'.net.g.nextNode ≤ x := hx
        rw [hg] at hx
        exact h.inn x (Nat.le_trans (Nat.le_succ _) hx)

/-- A step of the thread that does not touch the graph. -/
theorem inLag_phase (h : InLag p) {t : LPhase} (hj : unjoined t = unjoined (p.th u))
    (hth : p'.th = fun v => if v = u then t else p.th v) (hg : p'.b.net.g = p.b.net.g) : InLag p' := by
  have he : ∀ v, unjoined (p'.th v) = unjoined (p.th v) := by
    intro v
    rw [hth]
    by_cases hv : v = u
    · subst hv; simp only [if_pos, hj]
    · simp only [if_neg hv]
  exact inLag_same h (fun v => by funext x y; simp only [lagAt, he]) he hg

theorem inLag_lock (h : InLag p) (hi : TaskInv D N K p) (hne : p.th u ≠ .idle) (hs : p.lockStep u = some p') :
    InLag p' := by
  unfold TaskSt.lockStep at hs
  split at hs
  · cases hs
  · rename_i l hl
    cases hs
    unfold LSt.step at hl
    rw [show p.locks.th u = p.th u from rfl] at hl
    cases ht : p.th u with
    | idle => exact (hne ht).elim
    | lockSrc r =>
      rw [ht] at hl
      simp only [LSt.stepAt] at hl
      split at hl
      · cases hl
      · cases hl
        refine inLag_phase (u := u) (t := if r.dedup then .look r else .pushOut r) h ?_ rfl rfl
        rw [ht]
        split <;> rfl
    | look r =>
      rw [ht] at hl
      simp only [LSt.stepAt] at hl
      split at hl
      · rename_i e _
        cases hl
        exact inLag_phase (u := u) (t := .unlockSrc r e) h (by rw [ht]; rfl) rfl rfl
      · cases hl
        exact inLag_phase (u := u) (t := .pushOut r) h (by rw [ht]; rfl) rfl rfl
    | pushOut r =>
      rw [ht] at hl
      simp only [LSt.stepAt] at hl
      cases hl
      have hxy := hi.req u r (by rw [ht]; rfl)
      have hun : unjoined (if r.src = r.tgt then LPhase.pushIn r ⟨p.b.net.g.nextEdge, r.src, r.tgt⟩
          else if r.dedup then .lockTgt r ⟨p.b.net.g.nextEdge, r.src, r.tgt⟩
            else .unlockEarly r ⟨p.b.net.g.nextEdge, r.src, r.tgt⟩) = some (r, ⟨p.b.net.g.nextEdge, r.src, r.tgt⟩) := by
        repeat' split
        all_goals rfl
      have hout : ∀ z, ((p.b.net.g.upd r.src (fun n => pushOut n ⟨p.b.net.g.nextEdge, r.src, r.tgt⟩)).obj z).outE =
          (p.b.net.g.obj z).outE ++ if z = r.src then [⟨p.b.net.g.nextEdge, r.src, r.tgt⟩] else [] := by
        intro z
        rw [upd_obj]
        by_cases hz : z = r.src
        · rw [if_pos hz, if_pos hz, hz]; rfl
        · rw [if_neg hz, if_neg hz, List.append_nil]
      have hinn : ∀ z, ((p.b.net.g.upd r.src (fun n => pushOut n ⟨p.b.net.g.nextEdge, r.src, r.tgt⟩)).obj z).inE =
          (p.b.net.g.obj z).inE := by
        intro z
        rw [upd_obj]
        by_cases hz : z = r.src
        · rw [if_pos hz, hz]; rfl
        · rw [if_neg hz]
      refine inLag_step (u := u) (x := r.src) (y := r.tgt) h hi hxy (fun v hv => if_neg hv) ?_ rfl ?_ ?_ ?_ ?_ ?_
      · intro r' e' he
        have he : unjoined (if u = u then _ else _) = some (r', e') := he
        rw [if_pos rfl, show p.locks.g = p.b.net.g from rfl, hun] at he
        cases he
        exact ⟨⟨rfl, rfl⟩, rfl, rfl⟩
      · intro z hz
        refine (hout z).trans ?_
        rw [if_neg hz, List.append_nil]
      · intro z _
        exact hinn z
      · intro z hz
        refine (congrArg (List.filter fun e => e.tgt == z) (hout r.src)).trans ?_
        rw [if_pos rfl, List.filter_append, List.filter_cons,
          if_neg (by simpa using fun e => hz e.symm), List.filter_nil, List.append_nil]
        rfl
      · intro z _
        exact congrArg (List.filter fun e => e.src == z) (hinn r.tgt)
      · intro hp
        have hl1 : lagAt (p.th u) r.src r.tgt = [] := by rw [ht]; rfl
        rw [hl1, List.append_nil] at hp
        have hl2 : lagAt (if u = u then (if r.src = r.tgt then LPhase.pushIn r ⟨p.b.net.g.nextEdge, r.src, r.tgt⟩
          else if r.dedup then .lockTgt r ⟨p.b.net.g.nextEdge, r.src, r.tgt⟩
            else .unlockEarly r ⟨p.b.net.g.nextEdge, r.src, r.tgt⟩) else p.th u) r.src r.tgt =
            [⟨p.b.net.g.nextEdge, r.src, r.tgt⟩] := by
          rw [if_pos rfl]
          unfold lagAt
          rw [hun]
          simp
        refine (congrArg (List.filter fun e => e.tgt == r.tgt) (hout r.src)).trans ?_
        rw [if_pos rfl, List.filter_append, List.filter_cons, if_pos (by simp), List.filter_nil]
        refine Eq.trans ?_ (congr (congrArg HAppend.hAppend
          (congrArg (List.filter fun e => e.src == r.src) (hinn r.tgt)).symm) hl2.symm)
        exact congrArg (· ++ _) hp
    | unlockEarly r e =>
      rw [ht] at hl
      simp only [LSt.stepAt] at hl
      cases hl
      exact inLag_phase (u := u) (t := .lockTgt r e) h (by rw [ht]; rfl) rfl rfl
    | lockTgt r e =>
      rw [ht] at hl
      simp only [LSt.stepAt] at hl
      split at hl
      · cases hl
      · cases hl
        exact inLag_phase (u := u) (t := .pushIn r e) h (by rw [ht]; rfl) rfl rfl
    | pushIn r e =>
      rw [ht] at hl
      simp only [LSt.stepAt] at hl
      cases hl
      have hxy := hi.req u r (by rw [ht]; rfl)
      have hends := h.ends u r e (by rw [ht]; rfl)
      have hun : unjoined (if r.src = r.tgt then LPhase.unlockSrc r e else .unlockTgt r e) = none := by
        split <;> rfl
      have hout : ∀ z, ((p.b.net.g.upd r.tgt (fun n => pushIn n e)).obj z).outE = (p.b.net.g.obj z).outE := by
        intro z
        rw [upd_obj]
        by_cases hz : z = r.tgt
        · rw [if_pos hz, hz]; rfl
        · rw [if_neg hz]
      have hinn : ∀ z, ((p.b.net.g.upd r.tgt (fun n => pushIn n e)).obj z).inE =
          (p.b.net.g.obj z).inE ++ if z = r.tgt then [e] else [] := by
        intro z
        rw [upd_obj]
        by_cases hz : z = r.tgt
        · rw [if_pos hz, if_pos hz, hz]; rfl
        · rw [if_neg hz, if_neg hz, List.append_nil]
      refine inLag_step (u := u) (x := r.src) (y := r.tgt) h hi hxy (fun v hv => if_neg hv) ?_ rfl ?_ ?_ ?_ ?_ ?_
      · intro r' e' he
        have he : unjoined (if u = u then _ else _) = some (r', e') := he
        rw [if_pos rfl, hun] at he
        cases he
      · intro z _
        exact hout z
      · intro z hz
        refine (hinn z).trans ?_
        rw [if_neg hz, List.append_nil]
      · intro z _
        exact congrArg (List.filter fun e => e.tgt == z) (hout r.src)
      · intro z hz
        refine (congrArg (List.filter fun e => e.src == z) (hinn r.tgt)).trans ?_
        rw [if_pos rfl, List.filter_append, List.filter_cons,
          if_neg (by rw [hends.1]; simpa using fun e => hz e.symm), List.filter_nil, List.append_nil]
        rfl
      · intro hp
        have hl1 : lagAt (p.th u) r.src r.tgt = [e] := by rw [ht]; simp [lagAt, unjoined]
        rw [hl1] at hp
        have hl2 : lagAt (if u = u then (if r.src = r.tgt then LPhase.unlockSrc r e else .unlockTgt r e) else p.th u)
            r.src r.tgt = [] := by
          rw [if_pos rfl]
          unfold lagAt
          rw [hun]
        refine (congrArg (List.filter fun e => e.tgt == r.tgt) (hout r.src)).trans ?_
        refine hp.trans ?_
        refine Eq.trans ?_ (congr (congrArg HAppend.hAppend
          (congrArg (List.filter fun e => e.src == r.src) (hinn r.tgt)).symm) hl2.symm)
        rw [if_pos rfl, List.filter_append, List.filter_cons, if_pos (by rw [hends.1]; simp), List.filter_nil,
          List.append_nil]
        rfl
    | unlockTgt r e =>
      rw [ht] at hl
      simp only [LSt.stepAt] at hl
      cases hl
      cases hd : r.dedup
      · exact inLag_phase (u := u) (t := .idle) h (by rw [ht]; rfl) (by simp only [hd]; rfl) (by simp only [hd]; rfl)
      · exact inLag_phase (u := u) (t := .unlockSrc r e) h (by rw [ht]; rfl) (by simp only [hd]; rfl) (by simp only [hd]; rfl)
    | unlockSrc r e =>
      rw [ht] at hl
      simp only [LSt.stepAt] at hl
      cases hl
      exact inLag_phase (u := u) (t := .idle) h (by rw [ht]; rfl) rfl rfl

theorem inLag_run (l : List Nat) : ∀ {p p' : TaskSt}, InLag p → TaskInv D N K p → p.run D l = some p' → InLag p' := by
  induction l with
  | nil => intro p p' h _ hs; cases hs; exact h
  | cons u l ih =>
    intro p p' h hi hs
    simp only [TaskSt.run] at hs
    split at hs
    · cases hs
    · rename_i q hq
      refine ih ?_ (taskInv_step hi hq) hs
      unfold TaskSt.step at hq
      split at hq
      · rename_i hc
        split at hq
        · rename_i j js hj
          cases hq
          exact inLag_begin h (hi.idle hc) j
        · split at hq <;> cases hq
          exact inLag_take h
      · split at hq
        · rename_i hth
          cases hq
          exact inLag_back h hth
        · rename_i hth
          exact inLag_lock h hi hth hq

theorem both_reach {net : NetGraph} (h : Reachable net) : BothEnds net := by
  obtain ⟨A, hrel, _⟩ := reachable_rel h
  intro x y
  rw [hrel.out, hrel.inn, List.filter_filter, List.filter_filter]
  congr 1
  funext e
  exact Bool.and_comm _ _

theorem inLag_init {s : Bld} {hist : List (Nat × Rec)} (hs : Begun s hist) (as : Nat → List BAct) :
    InLag (.init s as) := by
  obtain ⟨A, hrel, hA⟩ := reachable_rel hs.reach
  refine ⟨?_, (fun u r e he => by cases he), ?_, ?_⟩
  · intro u x y _
    show pairE s.net.g x y = pairIn s.net.g x y ++ []
    rw [List.append_nil]
    exact (both_reach hs.reach x y).symm
  · intro x hx
    have hx : s.net.g.nextNode ≤ x := hx
    rw [hrel.nextNode] at hx
    show (s.net.g.obj x).outE = []
    rw [hrel.out]
    refine List.filter_eq_nil_iff.2 fun e he => ?_
    have := hA.fresh _ (hA.ends e he).1
    simp only [beq_iff_eq]
    omega
  · intro x hx
    have hx : s.net.g.nextNode ≤ x := hx
    rw [hrel.nextNode] at hx
    show (s.net.g.obj x).inE = []
    rw [hrel.inn]
    refine List.filter_eq_nil_iff.2 fun e he => ?_
    have := hA.fresh _ (hA.ends e he).2.1
    simp only [beq_iff_eq]
    omega

theorem InLag.done (h : InLag p) (hi : TaskInv D N K p) (hd : TasksDone p) : BothEnds p.b.net := by
  intro x y
  have := h.lag 0 x y fun v _ => by rw [hi.idle (hd v).1]; rfl
  rw [hi.idle (hd 0).1] at this
  exact (this.trans (List.append_nil _)).symm

/-! ### Phase 4 -/

def GBoth (g : DGraph) : Prop := ∀ x y, pairIn g x y = pairE g x y

theorem gboth_new {g : DGraph} (h : GBoth g) (s t : Nat) : GBoth (g.addNewEdge s t).1 := by
  have ho : ∀ z, ((g.addNewEdge s t).1.obj z).outE = (g.obj z).outE ++ if z = s then [⟨g.nextEdge, s, t⟩] else [] := by
    intro z
    simp only [DGraph.addNewEdge, upd_obj]
    by_cases hs : z = s <;> by_cases ht : z = t
    · subst hs; subst ht; simp [pushIn, pushOut]
    · subst hs; simp [pushOut, ht]
    · subst ht; simp [pushIn, hs]
    · simp [hs, ht]
  have hn : ∀ z, ((g.addNewEdge s t).1.obj z).inE = (g.obj z).inE ++ if z = t then [⟨g.nextEdge, s, t⟩] else [] := by
    intro z
    simp only [DGraph.addNewEdge, upd_obj]
    by_cases hs : z = s <;> by_cases ht : z = t
    · subst hs; subst ht; simp [pushIn, pushOut]
    · subst hs; simp [pushOut, ht]
    · subst ht; simp only [if_neg hs, if_true, pushIn]
    · simp [hs, ht]
  intro x y
  have h0 := h x y
  unfold pairIn pairE at h0 ⊢
  rw [ho, hn, List.filter_append, List.filter_append, h0]
  congr 1
  by_cases hx : x = s <;> by_cases hy : y = t
  · simp [hx, hy]
  · simp only [hx, hy, if_true, if_false, List.filter_nil]; simp; exact fun e => hy e.symm
  · simp only [hx, hy, if_true, if_false, List.filter_nil]; simp; exact fun e => hx e.symm
  · simp [hx, hy]

theorem gboth_add {g : DGraph} (h : GBoth g) (s t : Nat) : GBoth (g.addEdge s t).1 := by
  unfold DGraph.addEdge
  split
  · exact h
  · exact gboth_new h s t

theorem both_dep {net net' : NetGraph} (h : GBoth net.g) {d : Dep} (hd : net.addDependency d = some net') :
    GBoth net'.g := by
  have hcall : ∀ {a b : NetGraph} {op : GOp} {nop : NetOp}, nop.gop = some op → a.call nop = some b → GBoth a.g →
      (∀ g' o, a.g.call op = some (g', o) → GBoth g') → GBoth b.g := by
    intro a b op nop ho hc _ hg
    unfold NetGraph.call at hc
    rw [ho] at hc
    dsimp only at hc
    split at hc
    · cases hc
    · rename_i g' o hx
      rw [← Option.some.inj hc]
      exact hg g' o hx
  unfold NetGraph.addDependency at hd
  dsimp only at hd
  split at hd
  · cases hd
  · rename_i n1 h1
    have b1 : GBoth n1.g := hcall rfl h1 h (fun g' o hx => by
      simp only [DGraph.call] at hx
      split at hx <;> cases hx
      exact gboth_add h _ _)
    split at hd
    · have := Option.some.inj hd
      rw [← this]
      exact b1
    · split at hd
      · cases hd
      · rename_i n2 h2
        have b2 : GBoth n2.g := hcall rfl h2 b1 (fun g' o hx => by
          simp only [DGraph.call] at hx
          split at hx <;> cases hx
          exact gboth_new b1 _ _)
        have := Option.some.inj hd
        rw [← this]
        exact b2

theorem both_deps {ds : List Dep} : ∀ {net net' : NetGraph}, BothEnds net → net.addDependencies ds = some net' →
    BothEnds net' := by
  induction ds with
  | nil => intro net net' h hd; cases hd; exact h
  | cons d ds ih =>
    intro net net' h hd
    simp only [NetGraph.addDependencies] at hd
    split at hd
    · cases hd
    · rename_i n1 h1
      exact ih (both_dep h h1) hd

theorem both_sequential {c : ResolveCtx} {net net' : NetGraph} {q : List Pending} (h : BothEnds net)
    (hr : resolveSequential c net q = .ok net') : BothEnds net' := by
  unfold resolveSequential at hr
  split at hr
  · cases hr
  · split at hr
    · cases hr
    · rename_i n hn
      cases hr
      exact both_deps h hn

theorem both_parallel {c : ResolveCtx} {addr : Nat → Nat} {net net' : NetGraph} {q : List Pending} (h : BothEnds net)
    (hr : ResolvesParallel c addr net q net') : BothEnds net' := by
  obtain ⟨_, _, _, _, _, _, _, _, h5⟩ := hr
  exact both_deps h h5

end Verif.Proofs

import Verif.Proofs.DataflowRead
import Verif.Spec.Build

/-! Every read in a statement is linked to the definitions that reach it, or queued. -/
namespace Verif.Proofs
open Verif.Spec Verif.Model Verif.Props

/-- Node `n` is entered from every assignment whose write of a bit of `r` is the last on a path of
`Q`, and waits for every bit of `r` no path of `Q` writes; for all of `r` in one piece if no path of
`Q` writes any of its bits. For a modport port it is entered from the variables behind it instead. -/
structure Linked (c : DfaCtx) (s : Dfa) (r : Ref) (n : Nat) (Q : List Wr → Prop) : Prop where
  defs : ∀ p tr loc, InRng r.bounds p → Q tr → LastAt true tr r.sym p loc →
    ∃ k ∈ s.net.g.nodes, s.net.data k = .assignment loc ∧ Joined s.net k n
  queued : c.D.kind r.sym ≠ .modportPort → ∀ p, InRng r.bounds p →
    (∀ tr, Q tr → ∀ w ∈ tr, ¬ Hits true r.sym p w) →
    ∃ x ∈ s.queue, x.sym = r.sym ∧ x.node = some n ∧ x.kind = .none ∧ InRng x.bounds p
  whole : c.D.kind r.sym ≠ .modportPort → r.bounds.left ≤ r.bounds.right →
    (∀ p, InRng r.bounds p → ∀ tr, Q tr → ∀ w ∈ tr, ¬ Hits true r.sym p w) →
    ⟨r.sym, r.bounds, some n, .none⟩ ∈ s.queue
  behind : c.D.kind r.sym = .modportPort → ∀ p, InRng r.bounds p →
    (∀ tr, Q tr → ∀ w ∈ tr, ¬ Hits true r.sym p w) → ∀ a, Behind c r a → Joined s.net a n

theorem Linked.mono {c : DfaCtx} {s s' : Dfa} {r : Ref} {n : Nat} {Q : List Wr → Prop}
    (h : Linked c s r n Q) (hn : NetLe s.net s'.net) (hq : Queued s s') : Linked c s' r n Q := by
  refine ⟨fun p tr loc hp ht hl => ?_, fun hk p hp hw => ?_, fun hk ha hw => ?_,
    fun hk p hp hw a ha => hn.join _ _ (h.behind hk p hp hw a ha)⟩
  · obtain ⟨k, h1, h2, h3⟩ := h.defs p tr loc hp ht hl
    exact ⟨k, hn.nodes k h1, by rw [hn.data k h1, h2], hn.join _ _ h3⟩
  · obtain ⟨x, hx, h1⟩ := h.queued hk p hp hw
    obtain ⟨q, hq, _⟩ := hq
    exact ⟨x, by rw [hq]; exact List.mem_append_left _ hx, h1⟩
  · obtain ⟨q, hq, _⟩ := hq
    rw [hq]; exact List.mem_append_left _ (h.whole hk ha hw)

theorem lastAt_append_apart {b : Bool} {u ws : List Wr} {y : Nat} {p : Int} {loc : TextLoc}
    (h : ∀ w ∈ ws, ¬ Hits b y p w) : LastAt b (u ++ ws) y p loc ↔ LastAt b u y p loc := by
  induction ws generalizing u with
  | nil => simp
  | cons w ws ih =>
    have : u ++ w :: ws = (u ++ [w]) ++ ws := by simp
    rw [this, ih fun v hv => h v (List.mem_cons_of_mem _ hv), lastAt_snoc]
    have := h w List.mem_cons_self
    grind

theorem Linked.apart {c : DfaCtx} {s : Dfa} {r : Ref} {n : Nat} {Q : List Wr → Prop} {ws : List Wr}
    (h : Linked c s r n (app Q ws)) (ha : Apart ws r) : Linked c s r n Q := by
  refine ⟨fun p tr loc hp ht hl => ?_, fun hk p hp hw => ?_, fun hk hr hw => h.whole hk hr fun p hp => ?_,
    fun hk p hp hw => h.behind hk p hp ?_⟩
  · exact h.defs p (tr ++ ws) loc hp ⟨tr, ht, rfl⟩ ((lastAt_append_apart (ha p hp)).2 hl)
  · refine h.queued hk p hp ?_
    rintro _ ⟨u, hu, rfl⟩ w hw'
    rcases List.mem_append.1 hw' with hw' | hw'
    · exact hw u hu w hw'
    · exact ha p hp w hw'
  · rintro _ ⟨u, hu, rfl⟩ w hw'
    rcases List.mem_append.1 hw' with hw' | hw'
    · exact hw p hp u hu w hw'
    · exact ha p hp w hw'
  · rintro _ ⟨u, hu, rfl⟩ w hw'
    rcases List.mem_append.1 hw' with hw' | hw'
    · exact hw u hu w hw'
    · exact ha p hp w hw'

theorem lastAt_of_hit {b : Bool} {ws : List Wr} {y : Nat} {p : Int} (h : ∃ w ∈ ws, Hits b y p w) :
    ∃ loc, LastAt b ws y p loc := by
  induction ws with
  | nil => obtain ⟨w, hw, _⟩ := h; cases hw
  | cons w ws ih =>
    by_cases h' : ∃ v ∈ ws, Hits b y p v
    · obtain ⟨loc, hl⟩ := ih h'
      exact ⟨loc, lastAt_cons.2 (.inl hl)⟩
    · obtain ⟨v, hv, hh⟩ := h
      rcases List.mem_cons.1 hv with rfl | hv
      · exact ⟨_, lastAt_cons.2 (.inr ⟨fun x hx hxx => h' ⟨x, hx, hxx⟩, hh, rfl⟩)⟩
      · exact absurd ⟨v, hv, hh⟩ h'

theorem addRvalue_queue {c : DfaCtx} {s s' : Dfa} {r : Ref} {b : BitRange} {node : Option Nat}
    (hk : c.D.kind r.sym ≠ .modportPort) (h : s.addRvalue c r b node = .ok s') :
    ⟨r.sym, b, node, .none⟩ ∈ s'.queue := by
  unfold Dfa.addRvalue at h
  split at h
  · rename_i h1; exact absurd h1 hk
  · cases h; simp

theorem subtract_apart {α β : Type} (stop : Int) (v : α) : ∀ (rs : List (Ivl β)) (lo : Int),
    (∀ e ∈ rs, e.hi < lo ∨ stop < e.lo) → lo ≤ stop → subtractLoop [] stop v lo rs = .ok [⟨lo, stop, v⟩]
  | [], lo, _, hle => by simp only [subtractLoop, hle, if_true, imInsert]
  | e :: rs, lo, h, hle => by
    have ih := subtract_apart stop v rs lo (fun x hx => h x (.tail _ hx)) hle
    unfold subtractLoop
    split
    · exact ih
    · split
      · exact ih
      · rcases h e (.head _) with h | h <;> omega

/-- Nothing is taken away by intervals elsewhere. -/
theorem difference_apart {α β : Type} {lo hi : Int} {v : α} {second : List (Ivl β)} (hle : lo ≤ hi)
    (h : ∀ e ∈ second, e.hi < lo ∨ hi < e.lo) : imDifference [⟨lo, hi, v⟩] second = .ok [⟨lo, hi, v⟩] := by
  unfold imDifference
  split
  · rfl
  · simp only [differenceLoop, subtractSingle, subtract_apart hi v second lo h hle]

/-- A read of bits that have no drivers is queued in one piece. -/
theorem handleRvalue_whole {c : DfaCtx} {W : List Wr} {s s' : Dfa} (hok : Ok c W s) (r : Ref) {n : Nat}
    (hn : s.cur.node = some n) (ha : r.bounds.left ≤ r.bounds.right)
    (hk : c.D.kind r.sym ≠ .modportPort) (hw : ∀ p d, InRng r.bounds p → ¬ DAt s.trk s.cur.drv r.sym p d)
    (h : s.handleRvalue c r = .ok s') : ⟨r.sym, r.bounds, some n, .none⟩ ∈ s'.queue := by
  unfold Dfa.handleRvalue at h
  cases hg : (s.trk.getSlot r.sym).bind (fun i => s.cur.drv[i]?) with
  | none =>
    rw [hg, hn] at h
    exact addRvalue_queue hk h
  | some m =>
    obtain ⟨i, hi, hm⟩ := Option.bind_eq_some_iff.1 hg
    have hlow : r.bounds.lower = r.bounds.left := by simp only [BitRange.lower]; omega
    have hup : r.bounds.upper = r.bounds.right := by simp only [BitRange.upper]; omega
    have hiv := (hok.flow.drv.maps _ i m (getSlot_mem hi) hm).1.ok.1
    have hap : ∀ e ∈ m.ivls, e.hi < r.bounds.lower ∨ r.bounds.upper < e.lo := by
      intro e he
      refine Classical.byContradiction fun hc => ?_
      have hv := hiv e he
      have hin : InRng r.bounds (max r.bounds.left e.lo) := (inRng_iff _ _).2 (by rw [hlow, hup]; omega)
      obtain ⟨d, hd⟩ := hok.flow.drv.full _ i m (getSlot_mem hi) hm (max r.bounds.left e.lo)
        ⟨e, he, by constructor <;> omega⟩
      exact hw _ d hin ⟨i, m, getSlot_mem hi, hm, hd⟩
    have hnil : imFind m.ivls r.bounds.lower r.bounds.upper = [] := by
      refine List.filter_eq_nil_iff.2 fun e he => ?_
      have := hap e he
      simp only [Ivl.hits, Bool.and_eq_true, decide_eq_true_eq]
      omega
    have hdf := difference_apart (v := ()) (by omega : r.bounds.lower ≤ r.bounds.upper) hap
    rw [hlow, hup] at hnil hdf
    simp only [hg, hn, hnil, hdf, readLoop, Dfa.addDeps,
      NetGraph.addDependencies, Bool.false_eq_true, if_false,
      Dfa.addRvalues, hlow, hup] at h
    split at h
    · cases h
    · rename_i s1 h1
      cases h
      exact addRvalue_queue hk h1

/-- One read. -/
theorem handleRvalue_linked {c : DfaCtx} {W : List Wr} {s : Dfa} (hok : Ok c W s) (r : Ref) {n : Nat}
    (hn : s.cur.node = some n) (hf : ReadFits W r.sym r.bounds) {Q : List Wr → Prop} (hs : Sem s Q)
    (hr : s.cur.reach = true) :
    ∃ s', s.handleRvalue c r = .ok s' ∧ ReadLe s s' ∧ Linked c s' r n Q := by
  obtain ⟨s', q, g1, g2, g3, g4, _, g6, g7, g8, _⟩ := handleRvalue_spec hok r hn hf
  have hdefs := hs.defs hr
  have hnone : ∀ p, (∀ tr, Q tr → ∀ w ∈ tr, ¬ Hits true r.sym p w) → ∀ d, ¬ DAt s.trk s.cur.drv r.sym p d := by
    intro p hw d hd
    obtain ⟨loc, hloc⟩ := hok.flow.assign _ _ _ hd
    obtain ⟨tr, ht, hl⟩ := (hdefs r.sym p loc).1 ⟨d, hd, hloc⟩
    obtain ⟨w, hwm, hh⟩ := lastAt_hits hl
    exact hw tr ht w hwm hh
  refine ⟨s', g1, g2, fun p tr loc hp ht hl => ?_, fun hk p hp hw => ?_,
    fun hk ha hw => handleRvalue_whole hok r hn ha hk (fun p d hp => hnone p (hw p hp) d) g1,
    fun hk p hp hw => g8 p hp (hnone p hw) hk⟩
  · obtain ⟨d, hd, k, hk, rfl, hkd⟩ := (hdefs r.sym p loc).2 ⟨tr, ht, hl⟩
    exact ⟨k, g2.net.nodes k hk, by rw [g2.net.data k hk, hkd], g7 p k hp hd⟩
  · obtain ⟨x, hx, hb⟩ := g6 p hp (hnone p hw) hk
    obtain ⟨e1, e2, e3, _⟩ := g4 x hx
    exact ⟨x, by rw [g3]; exact List.mem_append_right _ hx, e1, e2, e3, hb⟩

theorem noteRefs_append (c : DfaCtx) (b : Bool) (l1 l2 : List Note) (s s1 : Dfa)
    (h : s.noteRefs c b l1 = .ok s1) : s.noteRefs c b (l1 ++ l2) = s1.noteRefs c b l2 := by
  induction l1 generalizing s with
  | nil => simp only [Dfa.noteRefs, Except.ok.injEq] at h; subst h; rfl
  | cons x xs ih =>
    simp only [List.cons_append, Dfa.noteRefs] at h ⊢
    split at h
    · cases h
    · rename_i s' hs'; exact ih s' h

theorem sem_reach {s : Dfa} {Q : List Wr → Prop} (h : Sem s Q) (hq : ∃ tr, Q tr) :
    s.cur.reach = true := h.reach.2 hq

/-- A read among noted uses, with the writes noted before it. -/
theorem noteRefs_after {c : DfaCtx} {W : List Wr} (hW : Plain W) {blocking : Bool} {loc : TextLoc}
    {pre post : List Note} {r : Ref} {s : Dfa} (hok : Ok c W s) {n : Nat} (hn : s.cur.node = some n)
    (hl : (∃ x ∈ pre ++ ⟨false, r⟩ :: post, x.write = true) → IsAssign s.net s.cur.node loc)
    (hw : ∀ w ∈ noteWrites loc blocking (pre ++ ⟨false, r⟩ :: post), w ∈ W)
    (ha : r.auto = false) (hf : ReadFits W r.sym r.bounds) {Q : List Wr → Prop} (hs : Sem s Q)
    (hq : ∃ tr, Q tr) :
    ∃ s', s.noteRefs c blocking (pre ++ ⟨false, r⟩ :: post) = .ok s' ∧
      Linked c s' r n (app Q (noteWrites loc blocking pre)) := by
  have hpre : ∀ w ∈ noteWrites loc blocking pre, w ∈ noteWrites loc blocking (pre ++ ⟨false, r⟩ :: post) := by
    intro w h
    unfold noteWrites at h ⊢
    rw [List.filter_append, List.map_append]
    exact List.mem_append_left _ h
  have hpost : ∀ w ∈ noteWrites loc blocking post,
      w ∈ noteWrites loc blocking (pre ++ ⟨false, r⟩ :: post) := by
    intro w h
    unfold noteWrites at h ⊢
    rw [List.filter_append, List.map_append]
    refine List.mem_append_right _ ?_
    rw [List.filter_cons]
    simpa using h
  obtain ⟨s1, a1, a2, a3, a4, a5, _, a7⟩ := noteRefs_ok hW (blocking := blocking) (loc := loc) pre s hok
    (fun ⟨x, hx, h⟩ => hl ⟨x, List.mem_append_left _ hx, h⟩) (fun w h => hw w (hpre w h))
  have hs1 := a7 Q hs
  have hr1 : s1.cur.reach = true := by rw [a5.reach]; exact sem_reach hs hq
  obtain ⟨s2, b1, b2, b3⟩ := handleRvalue_linked a2 r (by rw [a5.node]; exact hn) hf hs1 hr1
  obtain ⟨s3, c1, _, c3, _⟩ := noteRefs_ok hW (blocking := blocking) (loc := loc) post s2 (b2.ok a2)
    (fun ⟨x, hx, h⟩ => by
      rw [b2.cur, a5.node]
      exact isAssign_mono (a3.net.trans b2.net)
        (hl ⟨x, List.mem_append_right _ (List.mem_cons_of_mem _ hx), h⟩))
    (fun w h => hw w (hpost w h))
  refine ⟨s3, ?_, ?_⟩
  · rw [noteRefs_append c blocking pre _ s s1 a1]
    have hnr : s1.noteRef c blocking ⟨false, r⟩ = .ok s2 := by
      simp [Dfa.noteRef, hr1, ha, b1]
    simp only [Dfa.noteRefs, hnr, c1]
  · exact b3.mono c3.net c3.queue

/-- A read among noted uses that none of them writes. -/
theorem noteRefs_linked {c : DfaCtx} {W : List Wr} (hW : Plain W) {blocking : Bool} {loc : TextLoc}
    {notes : List Note} {s : Dfa} (hok : Ok c W s) {n : Nat} (hn : s.cur.node = some n)
    (hl : (∃ x ∈ notes, x.write = true) → IsAssign s.net s.cur.node loc)
    (hw : ∀ w ∈ noteWrites loc blocking notes, w ∈ W) {r : Ref} (hr : (⟨false, r⟩ : Note) ∈ notes)
    (ha : r.auto = false) (hf : ReadFits W r.sym r.bounds) {Q : List Wr → Prop} (hs : Sem s Q)
    (hq : ∃ tr, Q tr) (hap : Apart (noteWrites loc blocking notes) r) :
    ∃ s', s.noteRefs c blocking notes = .ok s' ∧ Linked c s' r n Q := by
  obtain ⟨pre, post, rfl⟩ := List.append_of_mem hr
  obtain ⟨s', h1, h2⟩ := noteRefs_after (c := c) hW hok hn hl hw ha hf hs hq
  refine ⟨s', h1, h2.apart fun p hp w hw' => hap p hp w ?_⟩
  unfold noteWrites at hw' ⊢
  rw [List.filter_append, List.map_append]
  exact List.mem_append_left _ hw'

theorem segRhs_append (c : DfaCtx) (b : Bool) (l1 l2 : List RSrc) (s s1 : Dfa)
    (h : s.segRhs c b l1 = .ok s1) : s.segRhs c b (l1 ++ l2) = s1.segRhs c b l2 := by
  induction l1 generalizing s with
  | nil => simp only [Dfa.segRhs, Except.ok.injEq] at h; subst h; rfl
  | cons x xs ih =>
    simp only [List.cons_append, Dfa.segRhs] at h ⊢
    split at h
    · cases h
    · rename_i s' hs'; exact ih s' h

/-- A read on the right-hand side of a segment. -/
theorem segRhs_linked {c : DfaCtx} {W : List Wr} (hW : Plain W) (blocking : Bool) {xs : List RSrc}
    {s : Dfa} (hok : Ok c W s) {n : Nat} (hn : s.cur.node = some n) {x : RSrc} {r : Ref}
    (hx : x ∈ xs) (hr : SrcReads x r) (hf : ReadFits W r.sym r.bounds) {Q : List Wr → Prop}
    (hs : Sem s Q) (hq : ∃ tr, Q tr) :
    ∃ s', s.segRhs c blocking xs = .ok s' ∧ Linked c s' r n Q := by
  obtain ⟨pre, post, rfl⟩ := List.append_of_mem hx
  obtain ⟨s1, a1, a2⟩ := segRhs_ok hW blocking pre s hok
  have hok1 := a2.ok hok
  have hs1 : Sem s1 Q := a2.grow.sem hok hs
  have hn1 : s1.cur.node = some n := by rw [a2.cur]; exact hn
  have hstep : ∃ s2, s1.segSrc c blocking x = .ok s2 ∧ Ok c W s2 ∧ Linked c s2 r n Q := by
    obtain ⟨s2, g1, g2⟩ := segSrc_ok (c := c) hW blocking x hok1
    refine ⟨s2, g1, g2.ok hok1, ?_⟩
    cases hr with
    | lsp =>
      obtain ⟨s2', k1, _, k3⟩ := handleRvalue_linked hok1 r hn1 hf hs1 (sem_reach hs1 hq)
      rw [Dfa.segSrc, k1] at g1
      cases g1
      exact k3
    | @inside rs _ hm ha =>
      have hnw : ∀ loc, noteWrites loc blocking (rs.map fun r => (⟨false, r⟩ : Note)) = [] := by
        intro loc
        unfold noteWrites
        rw [List.filter_eq_nil_iff.2, List.map_nil]
        intro y hy
        obtain ⟨z, _, rfl⟩ := List.mem_map.1 hy
        simp
      obtain ⟨s2', k1, k2⟩ := noteRefs_linked (c := c) hW (blocking := blocking) (loc := {})
        (notes := rs.map fun r => ⟨false, r⟩) hok1 hn1
        (fun ⟨y, hy, h⟩ => by obtain ⟨z, _, rfl⟩ := List.mem_map.1 hy; cases h)
        (by rw [hnw]; simp) (List.mem_map.2 ⟨r, hm, rfl⟩) ha hf hs1 hq (by rw [hnw]; intro p _ w h; cases h)
      rw [Dfa.segSrc, k1] at g1
      cases g1
      exact k2
  obtain ⟨s2, b1, b2, b3⟩ := hstep
  obtain ⟨s3, c1, c2⟩ := segRhs_ok hW blocking post s2 b2
  refine ⟨s3, ?_, b3.mono c2.grow.net c2.grow.queue⟩
  rw [segRhs_append c blocking pre _ s s1 a1]
  simp only [Dfa.segRhs, b1, c1]

theorem segments_append (c : DfaCtx) (b : Bool) (node cond : Option Nat)
    (l1 l2 : List DSeg) (s s1 : Dfa) (h : s.segments c b node cond l1 = .ok s1) :
    s.segments c b node cond (l1 ++ l2) = s1.segments c b node cond l2 := by
  induction l1 generalizing s with
  | nil => simp only [Dfa.segments, Except.ok.injEq] at h; subst h; rfl
  | cons x xs ih =>
    simp only [List.cons_append, Dfa.segments] at h ⊢
    split at h
    · cases h
    · split at h
      · cases h
      · rename_i s' hs'; exact ih s' h

/-- A read in an assignment handled segment by segment, with the writes of the segments up to it. -/
theorem segments_after {c : DfaCtx} {W : List Wr} (hW : Plain W) {blocking : Bool} {loc : TextLoc}
    {node cond : Option Nat} {pre post : List DSeg} {g : DSeg} {s : Dfa} (hok : Ok c W s)
    (hnode : ∀ n, node = some n → n ∈ s.net.g.nodes) (hcond : ∀ n, cond = some n → n ∈ s.net.g.nodes)
    (hw : ∀ w ∈ asgWrites loc blocking (.aligned (pre ++ g :: post)), w ∈ W) {x : RSrc} {r : Ref}
    (hx : x ∈ g.rhs) (hr : SrcReads x r) (hf : ReadFits W r.sym r.bounds)
    {Q : List Wr → Prop} (hs : Sem s Q) (hq : ∃ tr, Q tr) :
    ∃ s' n, s.segments c blocking node cond (pre ++ g :: post) = .ok s' ∧ n ∈ s'.net.g.nodes ∧
      n ∉ s.net.g.nodes ∧ s'.net.data n = .assignment g.loc ∧
      Linked c s' r n (app Q (asgWrites loc blocking (.aligned (pre ++ [g])))) := by
  have hmem : ∀ l : List DSeg, (∀ y ∈ l, y ∈ pre ++ g :: post) → ∀ w ∈ asgWrites loc blocking (.aligned l),
      w ∈ asgWrites loc blocking (.aligned (pre ++ g :: post)) := by
    intro l hl w hw
    obtain ⟨y, hy, hw⟩ := List.mem_flatMap.1 hw
    exact List.mem_flatMap.2 ⟨y, hl y hy, hw⟩
  have hpre := hmem pre fun y hy => List.mem_append_left _ hy
  have hgl : ∀ q ∈ g.lhs, (⟨q.sym, q.bounds, g.loc, blocking⟩ : Wr) ∈
      asgWrites loc blocking (.aligned (pre ++ g :: post)) := by
    intro q hq
    exact hmem [g] (by simp) _ (List.mem_flatMap.2 ⟨g, by simp, List.mem_map.2 ⟨q, hq, rfl⟩⟩)
  have hpost := hmem post fun y hy => List.mem_append_right _ (List.mem_cons_of_mem _ hy)
  obtain ⟨s1, a1, a2, a3, a4, a5, _⟩ := segments_ok hW (blocking := blocking) (loc := loc)
    (node := node) (cond := cond) pre s hok hnode hcond (fun q h => hw _ (hpre q h))
  have hok0 : Ok c W ({ s1 with cur := { s1.cur with node := node, cond := cond } } : Dfa) :=
    ⟨a2.net, a2.trk, ⟨a2.flow.drv, a2.flow.assign, fun n h => a3.net.nodes n (hnode n h),
      fun n h => a3.net.nodes n (hcond n h)⟩, a2.vars, a2.ext, a2.nba⟩
  have hs0 : Sem ({ s1 with cur := { s1.cur with node := node, cond := cond } } : Dfa)
      (app Q (asgWrites loc blocking (.aligned pre))) :=
    ⟨(a5 Q hs).reach, (a5 Q hs).defs⟩
  obtain ⟨s2, n, b1, b2, b3, b4, b5, b6, _, _, _⟩ := startAssign_ok hok0 g.loc
  obtain ⟨s3, d1, d2, d3, d4, d5, d6⟩ := segLhs_ok hW (blocking := blocking) (loc := g.loc) g.lhs s2 b3
    (by rw [b4]; exact b5) (fun q h => hw _ (hgl q h))
  have hs3 := d6 _ (b2.sem hok0 hs0)
  rw [app_app] at hs3
  obtain ⟨tr0, ht0⟩ := hq
  obtain ⟨s4, e1, e2⟩ := segRhs_linked hW blocking (xs := g.rhs) d2 (by rw [d5.node]; exact b4) hx hr hf hs3
    ⟨_, tr0, ht0, rfl⟩
  obtain ⟨s4', e1', e3⟩ := segRhs_ok hW blocking g.rhs s3 d2
  rw [e1] at e1'
  cases e1'
  have hnet24 : NetLe s2.net s4.net := d4 ▸ e3.grow.net
  have hnet14 : NetLe s1.net s4.net := b2.net.trans hnet24
  have hn4 : n ∈ s4.net.g.nodes ∧ s4.net.data n = .assignment g.loc := by
    obtain ⟨m, hm, h1, h2⟩ := b5
    cases h1
    exact ⟨hnet24.nodes n hm, by rw [hnet24.data n hm, h2]⟩
  obtain ⟨s5, f1, f2, f3, _⟩ := segments_ok hW (blocking := blocking) (loc := loc)
    (node := node) (cond := cond) post s4 (e3.ok d2)
    (fun k hk => hnet14.nodes k (a3.net.nodes k (hnode k hk)))
    (fun k hk => hnet14.nodes k (a3.net.nodes k (hcond k hk))) (fun q h => hw _ (hpost q h))
  refine ⟨s5, n, ?_, f3.net.nodes n hn4.1, fun h => b6 (a3.net.nodes n h),
    by rw [f3.net.data n hn4.1, hn4.2], ?_⟩
  · rw [segments_append c blocking node cond pre _ s s1 a1]
    simp only [Dfa.segments, b1, Dfa.segBody, d1, e1, f1]
  · have e : asgWrites loc blocking (.aligned (pre ++ [g])) =
        asgWrites loc blocking (.aligned pre) ++ g.lhs.map fun q => ⟨q.sym, q.bounds, g.loc, blocking⟩ := by
      simp [asgWrites]
    rw [e]
    exact e2.mono f3.net f3.queue

/-- A use in a statement; `Q` also holds the writes its own assignment makes before it. -/
inductive UseAfter : (List Wr → Prop) → Stmt → NodeData → Ref → (List Wr → Prop) → Prop
  | note {P : List Wr → Prop} {loc : TextLoc} {b : Bool} {pre post : List Note} {r : Ref} : r.auto = false →
    UseAfter P (.assign loc b (.legacy (pre ++ ⟨false, r⟩ :: post))) (.assignment loc) r
      (app P (asgWrites loc b (.legacy pre)))
  | seg {P : List Wr → Prop} {loc : TextLoc} {b : Bool} {pre post : List DSeg} {g : DSeg} {x : RSrc} {r : Ref} :
    x ∈ g.rhs → SrcReads x r →
    UseAfter P (.assign loc b (.aligned (pre ++ g :: post))) (.assignment g.loc) r
      (app P (asgWrites loc b (.aligned (pre ++ [g]))))
  | cond {P : List Wr → Prop} {k : Bool} {loc : TextLoc} {rs : List Ref} {t : Stmt} {r : Ref} :
    r ∈ rs → r.auto = false →
    UseAfter P (.seq (.branch k loc) (.seq (.reads rs) t)) (if k then .case loc else .conditional loc) r P
  | left {P Q : List Wr → Prop} {s t : Stmt} {who : NodeData} {r : Ref} :
    UseAfter P s who r Q → UseAfter P (.seq s t) who r Q
  | right {P Q : List Wr → Prop} {s t : Stmt} {who : NodeData} {r : Ref} :
    UseAfter (After P s) t who r Q → UseAfter P (.seq s t) who r Q
  | first {P Q : List Wr → Prop} {f : Bool} {s t : Stmt} {who : NodeData} {r : Ref} :
    UseAfter P s who r Q → UseAfter P (.choose f s t) who r Q
  | second {P Q : List Wr → Prop} {f : Bool} {s t : Stmt} {who : NodeData} {r : Ref} :
    UseAfter P t who r Q → UseAfter P (.choose f s t) who r Q

/-- Every use in a statement, with the writes of its own assignment before it. -/
theorem useAfter_ok {c : DfaCtx} {W : List Wr} (hW : Plain W) {P Q : List Wr → Prop} {st : Stmt}
    {who : NodeData} {r : Ref} (hu : UseAfter P st who r Q) (hf : ReadFits W r.sym r.bounds)
    (hq : ∃ tr, Q tr) : ∀ s : Dfa, Ok c W s → (∀ w ∈ allWrites st, w ∈ W) → Sem s P →
    ∃ s' n, s.exec c st = .ok s' ∧ n ∈ s'.net.g.nodes ∧ n ∉ s.net.g.nodes ∧ s'.net.data n = who ∧
      Linked c s' r n Q := by
  induction hu with
  | @note P loc b pre post r ha =>
    intro s hok hw hs
    obtain ⟨s1, n, a1, a2, a3, a4, a5, a6, _, _, _⟩ := startAssign_ok hok loc
    have hw' : ∀ w ∈ noteWrites loc b (pre ++ ⟨false, r⟩ :: post), w ∈ W := by rw [noteWrites_eq]; exact hw
    obtain ⟨_, tr0, ht0, _⟩ := hq
    obtain ⟨s2, b1, b2⟩ := noteRefs_after (c := c) hW (blocking := b) (loc := loc) a3 a4
      (fun _ => by rw [a4]; exact a5) hw' ha hf (a2.sem hok hs) ⟨tr0, ht0⟩
    obtain ⟨s2', b1', _, b3, _⟩ := noteRefs_ok hW (blocking := b) (loc := loc) (pre ++ ⟨false, r⟩ :: post) s1 a3
      (fun _ => by rw [a4]; exact a5) hw'
    rw [b1] at b1'
    cases b1'
    obtain ⟨m, hm, h1, h2⟩ := a5
    cases h1
    rw [noteWrites_eq] at b2
    exact ⟨s2, n, by simp only [Dfa.exec, Dfa.assign, a1, b1], b3.net.nodes n hm, a6,
      by rw [b3.net.data n hm, h2], b2⟩
  | @seg P loc b pre post g x r hx hr =>
    intro s hok hw hs
    obtain ⟨_, tr0, ht0, _⟩ := hq
    obtain ⟨s', n, h1, h2⟩ := segments_after (c := c) hW (blocking := b) (loc := loc)
      (node := s.cur.node) (cond := s.cur.cond) hok hok.flow.node hok.flow.cond hw hx hr hf hs ⟨tr0, ht0⟩
    exact ⟨s', n, by simp only [Dfa.exec, Dfa.assign, h1], h2⟩
  | @cond P k loc rs t r hm ha =>
    intro s hok hw hs
    obtain ⟨s1, n, a1, a2, a3, a4, _, a6, a7, a8, _⟩ := branch_ok hok k loc
    have hnw : ∀ loc, noteWrites loc true (rs.map fun r => (⟨false, r⟩ : Note)) = [] := by
      intro loc
      unfold noteWrites
      rw [List.filter_eq_nil_iff.2, List.map_nil]
      intro y hy
      obtain ⟨z, _, rfl⟩ := List.mem_map.1 hy
      simp
    obtain ⟨s2, k1, k2⟩ := noteRefs_linked (c := c) hW (blocking := true) (loc := {})
      (notes := rs.map fun r => ⟨false, r⟩) a3 a4
      (fun ⟨y, hy, h⟩ => by obtain ⟨z, _, rfl⟩ := List.mem_map.1 hy; cases h)
      (by rw [hnw]; simp) (List.mem_map.2 ⟨r, hm, rfl⟩) ha hf (a2.sem hok hs) hq
      (by rw [hnw]; intro p _ w h; cases h)
    obtain ⟨s2', k1', k3⟩ := readRefs_ok hW true rs a3
    rw [k1] at k1'
    cases k1'
    obtain ⟨s3, e1, _, e3, _⟩ := exec_ok hW t s2 (k3.ok a3) (fun w h => hw w (by
      simp only [allWrites, List.nil_append]; exact h))
    have hn2 := k3.net.nodes n a7
    refine ⟨s3, n, by simp only [Dfa.exec, a1, k1, e1], e3.net.nodes n hn2, a6, ?_,
      k2.mono e3.net e3.queue⟩
    rw [e3.net.data n hn2, k3.net.data n a7, a8]
  | @left P Q s0 t who r _ ih =>
    intro s hok hw hs
    obtain ⟨s1, n, a1, a2, a3, a4, a5⟩ := ih hf hq s hok (fun w h => hw w (List.mem_append_left _ h)) hs
    obtain ⟨s1', a1', a6, _⟩ := exec_ok hW s0 s hok (fun w h => hw w (List.mem_append_left _ h))
    rw [a1] at a1'
    cases a1'
    obtain ⟨s2, b1, _, b3, _⟩ := exec_ok hW t s1 a6 (fun w h => hw w (List.mem_append_right _ h))
    exact ⟨s2, n, by simp only [Dfa.exec, a1, b1], b3.net.nodes n a2, a3,
      by rw [b3.net.data n a2, a4], a5.mono b3.net b3.queue⟩
  | @right P Q s0 t who r _ ih =>
    intro s hok hw hs
    obtain ⟨s1, a1, a2, a3, _, a5⟩ := exec_ok hW s0 s hok (fun w h => hw w (List.mem_append_left _ h))
    obtain ⟨s2, n, b1, b2, b3, b4⟩ := ih hf hq s1 a2 (fun w h => hw w (List.mem_append_right _ h)) (a5 P hs)
    exact ⟨s2, n, by simp only [Dfa.exec, a1, b1], b2, fun h => b3 (a3.net.nodes n h), b4⟩
  | @first P Q f a b who r _ ih =>
    intro s hok hw hs
    obtain ⟨s1, n, a1, a2, a3, a4, a5⟩ := ih hf hq s hok (fun w h => hw w (List.mem_append_left _ h)) hs
    obtain ⟨s1', a1', h2, h3, _⟩ := exec_ok hW a s hok (fun w h => hw w (List.mem_append_left _ h))
    rw [a1] at a1'
    cases a1'
    have hokS : Ok c W ({ s1 with cur := s.cur } : Dfa) :=
      ⟨h2.net, h2.trk, flowOk_mono h3.trk h3.net hok.flow, h2.vars, h2.ext, h2.nba⟩
    obtain ⟨s2, g1, g2, g3, _⟩ := exec_ok hW b _ hokS fun w h => hw w (List.mem_append_right _ h)
    have hle12 : Le (nbaWrites s.cur.reach b) s1 s2 := ⟨g3.net, g3.trk, g3.queue, g3.nba⟩
    have hflow1 : FlowOk W s2.trk s2.net s1.cur := flowOk_mono hle12.trk hle12.net h2.flow
    have hfin : ∃ s3, (if f then ({ s2 with cur := s1.cur } : Dfa).joinState s2.cur
        else s2.joinState s1.cur) = .ok s3 ∧ NetLe s2.net s3.net ∧ Queued s2 s3 := by
      cases f with
      | true =>
        obtain ⟨s3, k1, _, k3, _⟩ := joinState_ok hW (c := c) (W := W)
          (s := { s2 with cur := s1.cur }) ⟨g2.net, g2.trk, hflow1, g2.vars, g2.ext, g2.nba⟩
          (other := s2.cur) g2.flow
        exact ⟨s3, by simp only [if_true, k1], k3.net, k3.queue⟩
      | false =>
        obtain ⟨s3, k1, _, k3, _⟩ := joinState_ok hW g2 (other := s1.cur) hflow1
        exact ⟨s3, by simp only [Bool.false_eq_true, if_false, k1], k3.net, k3.queue⟩
    obtain ⟨s3, k1, k2, k3⟩ := hfin
    refine ⟨s3, n, by simp only [Dfa.exec, a1, g1, k1], k2.nodes n (hle12.net.nodes n a2), a3, ?_,
      (a5.mono hle12.net hle12.queue).mono k2 k3⟩
    rw [k2.data n (hle12.net.nodes n a2), hle12.net.data n a2, a4]
  | @second P Q f a b who r _ ih =>
    intro s hok hw hs
    obtain ⟨s1, a1, h2, h3, _⟩ := exec_ok hW a s hok (fun w h => hw w (List.mem_append_left _ h))
    have hokS : Ok c W ({ s1 with cur := s.cur } : Dfa) :=
      ⟨h2.net, h2.trk, flowOk_mono h3.trk h3.net hok.flow, h2.vars, h2.ext, h2.nba⟩
    have hsemS : Sem ({ s1 with cur := s.cur } : Dfa) P :=
      sem_mono (s' := { s1 with cur := s.cur }) hok.flow h3.trk h3.net rfl rfl hs
    obtain ⟨s2, n, g1, g2, g3, g4, g5⟩ := ih hf hq _ hokS (fun w h => hw w (List.mem_append_right _ h)) hsemS
    obtain ⟨s2', g1', g6, g7, _⟩ := exec_ok hW b _ hokS fun w h => hw w (List.mem_append_right _ h)
    rw [g1] at g1'
    cases g1'
    have hflow1 : FlowOk W s2.trk s2.net s1.cur := flowOk_mono g7.trk g7.net h2.flow
    have hfin : ∃ s3, (if f then ({ s2 with cur := s1.cur } : Dfa).joinState s2.cur
        else s2.joinState s1.cur) = .ok s3 ∧ NetLe s2.net s3.net ∧ Queued s2 s3 := by
      cases f with
      | true =>
        obtain ⟨s3, k1, _, k3, _⟩ := joinState_ok hW (c := c) (W := W)
          (s := { s2 with cur := s1.cur }) ⟨g6.net, g6.trk, hflow1, g6.vars, g6.ext, g6.nba⟩
          (other := s2.cur) g6.flow
        exact ⟨s3, by simp only [if_true, k1], k3.net, k3.queue⟩
      | false =>
        obtain ⟨s3, k1, _, k3, _⟩ := joinState_ok hW g6 (other := s1.cur) hflow1
        exact ⟨s3, by simp only [Bool.false_eq_true, if_false, k1], k3.net, k3.queue⟩
    obtain ⟨s3, k1, k2, k3⟩ := hfin
    refine ⟨s3, n, by simp only [Dfa.exec, a1, g1, k1], k2.nodes n g2, fun h => g3 (h3.net.nodes n h), ?_,
      g5.mono k2 k3⟩
    rw [k2.data n g2, g4]

theorem use_after {P Q : List Wr → Prop} {st : Stmt} {who : NodeData} {r : Ref} (h : Use P st who r Q) :
    ∃ ws, UseAfter P st who r (app Q ws) ∧ Apart ws r := by
  induction h with
  | @note P loc b notes r hm ha hap =>
    obtain ⟨pre, post, rfl⟩ := List.append_of_mem hm
    refine ⟨_, .note ha, fun p hp w hw => hap p hp w ?_⟩
    rw [← noteWrites_eq] at hw ⊢
    unfold noteWrites at hw ⊢
    rw [List.filter_append, List.map_append]
    exact List.mem_append_left _ hw
  | @seg P loc b segs g x r hg hx hr hap =>
    obtain ⟨pre, post, rfl⟩ := List.append_of_mem hg
    refine ⟨_, .seg hx hr, fun p hp w hw => hap p hp w ?_⟩
    obtain ⟨y, hy, hq⟩ := List.mem_flatMap.1 hw
    refine List.mem_flatMap.2 ⟨y, ?_, hq⟩
    simp only [List.mem_append, List.mem_cons, List.not_mem_nil, or_false] at hy ⊢
    rcases hy with hy | hy
    · exact .inl hy
    · exact .inr (.inl hy)
  | @cond P k loc rs t r hm ha => exact ⟨[], by rw [app_nil]; exact .cond hm ha, fun _ _ _ h => by cases h⟩
  | left _ ih => obtain ⟨ws, h1, h2⟩ := ih; exact ⟨ws, .left h1, h2⟩
  | right _ ih => obtain ⟨ws, h1, h2⟩ := ih; exact ⟨ws, .right h1, h2⟩
  | first _ ih => obtain ⟨ws, h1, h2⟩ := ih; exact ⟨ws, .first h1, h2⟩
  | second _ ih => obtain ⟨ws, h1, h2⟩ := ih; exact ⟨ws, .second h1, h2⟩

/-- Every use in a statement. -/
theorem use_ok {c : DfaCtx} {W : List Wr} (hW : Plain W) {P Q : List Wr → Prop} {st : Stmt}
    {who : NodeData} {r : Ref} (hu : Use P st who r Q) (hf : ReadFits W r.sym r.bounds)
    (hq : ∃ tr, Q tr) : ∀ s : Dfa, Ok c W s → (∀ w ∈ allWrites st, w ∈ W) → Sem s P →
    ∃ s' n, s.exec c st = .ok s' ∧ n ∈ s'.net.g.nodes ∧ n ∉ s.net.g.nodes ∧ s'.net.data n = who ∧
      Linked c s' r n Q := by
  intro s hok hw hs
  obtain ⟨ws, h1, h2⟩ := use_after hu
  obtain ⟨tr, ht⟩ := hq
  obtain ⟨s', n, g1, g2, g3, g4, g5⟩ := useAfter_ok hW h1 hf ⟨_, tr, ht, rfl⟩ s hok hw hs
  exact ⟨s', n, g1, g2, g3, g4, g5.apart h2⟩

theorem lastAt_app {b : Bool} {u ws : List Wr} {y : Nat} {p : Int} {loc : TextLoc} (h : LastAt b ws y p loc) :
    LastAt b (u ++ ws) y p loc := by
  obtain ⟨pre, w, post, rfl, h1⟩ := h
  exact ⟨u ++ pre, w, post, by simp, h1⟩

theorem lastAt_loc {loc loc' : TextLoc} {b : Bool} {ws : List Wr} {y : Nat} {p : Int}
    (h : LastAt b ws y p loc') (hw : ∀ w ∈ ws, w.loc = loc) : loc' = loc := by
  obtain ⟨pre, w, post, e, h1, h2, _⟩ := h
  exact h2.symm.trans (hw w (by rw [e]; simp))

theorem rereads_after {W : List Wr} {P : List Wr → Prop} {st : Stmt} {loc : TextLoc} (h : Rereads W P st loc) :
    ∃ r Q p tr, UseAfter P st (.assignment loc) r Q ∧ ReadFits W r.sym r.bounds ∧ InRng r.bounds p ∧ Q tr ∧
      LastAt true tr r.sym p loc := by
  induction h with
  | @note P loc pre post r p hq ha hp hw hf =>
    obtain ⟨tr, ht⟩ := hq
    obtain ⟨l, hl⟩ := lastAt_of_hit hw
    have := lastAt_loc (loc := loc) hl fun w hw => by
      obtain ⟨q, _, rfl⟩ := List.mem_map.1 hw
      rfl
    subst this
    exact ⟨r, _, p, _, .note ha, hf, hp, ⟨tr, ht, rfl⟩, lastAt_app hl⟩
  | @seg P loc segs g x r q p hq hg hx hr hql hqs hqp hp hf =>
    obtain ⟨tr, ht⟩ := hq
    obtain ⟨pre, post, rfl⟩ := List.append_of_mem hg
    have hw : ∃ w ∈ g.lhs.map (fun q => (⟨q.sym, q.bounds, g.loc, true⟩ : Wr)), Hits true r.sym p w :=
      ⟨⟨q.sym, q.bounds, g.loc, true⟩, List.mem_map.2 ⟨q, hql, rfl⟩, rfl, hqs, hqp⟩
    obtain ⟨l, hl⟩ := lastAt_of_hit hw
    have := lastAt_loc (loc := g.loc) hl fun w hw => by
      obtain ⟨q, _, rfl⟩ := List.mem_map.1 hw
      rfl
    subst this
    have e : asgWrites loc true (.aligned (pre ++ [g])) =
        asgWrites loc true (.aligned pre) ++ g.lhs.map fun q => ⟨q.sym, q.bounds, g.loc, true⟩ := by
      simp [asgWrites]
    exact ⟨r, _, p, _, .seg hx hr, hf, hp, ⟨tr, ht, rfl⟩, lastAt_app (e ▸ lastAt_app hl)⟩
  | left _ ih => obtain ⟨r, Q, p, tr, h1, h2⟩ := ih; exact ⟨r, Q, p, tr, .left h1, h2⟩
  | right _ ih => obtain ⟨r, Q, p, tr, h1, h2⟩ := ih; exact ⟨r, Q, p, tr, .right h1, h2⟩
  | first _ ih => obtain ⟨r, Q, p, tr, h1, h2⟩ := ih; exact ⟨r, Q, p, tr, .first h1, h2⟩
  | second _ ih => obtain ⟨r, Q, p, tr, h1, h2⟩ := ih; exact ⟨r, Q, p, tr, .second h1, h2⟩

end Verif.Proofs

import Verif.Model.Fork
import Verif.Spec.Fork
import Verif.Props.Dataflow

/-! Meeting the states of parallel branches. -/
namespace Verif.Proofs
open Verif.Model Verif.Spec Verif.Props

theorem shuffle_mem {α : Type} {ls : List (List α)} {w : List α} (h : Shuffle ls w) :
    ∀ x, x ∈ w ↔ ∃ l ∈ ls, x ∈ l := by
  induction h with
  | done h =>
    intro x
    constructor
    · intro hx; cases hx
    · rintro ⟨l, hl, hx⟩; rw [h l hl] at hx; cases hx
  | @step pre post x l w _ ih =>
    intro y
    rw [List.mem_cons, ih]
    constructor
    · rintro (rfl | ⟨m, hm, hy⟩)
      · exact ⟨y :: l, by simp, List.mem_cons_self⟩
      · simp only [List.mem_append, List.mem_cons] at hm
        rcases hm with hm | rfl | hm
        · exact ⟨m, by simp [hm], hy⟩
        · exact ⟨x :: m, by simp, List.mem_cons_of_mem _ hy⟩
        · exact ⟨m, by simp [hm], hy⟩
    · rintro ⟨m, hm, hy⟩
      simp only [List.mem_append, List.mem_cons] at hm
      rcases hm with hm | rfl | hm
      · exact .inr ⟨m, by simp [hm], hy⟩
      · rcases List.mem_cons.1 hy with rfl | hy
        · exact .inl rfl
        · exact .inr ⟨l, by simp, hy⟩
      · exact .inr ⟨m, by simp [hm], hy⟩

/-- The last element of a kind in an interleaving is the last of that kind in one of the lists. -/
theorem shuffle_last {α : Type} {P : α → Prop} {ls : List (List α)} {w : List α} (h : Shuffle ls w) :
    ∀ {pre : List α} {x : α} {post : List α}, w = pre ++ x :: post → (∀ y ∈ post, ¬ P y) →
    ∃ l ∈ ls, ∃ pre' post', l = pre' ++ x :: post' ∧ ∀ y ∈ post', ¬ P y := by
  induction h with
  | done h => intro pre x post hw; simp at hw
  | @step as bs a l w hs ih =>
    intro pre x post hw hp
    cases pre with
    | nil =>
      simp only [List.nil_append, List.cons.injEq] at hw
      obtain ⟨rfl, rfl⟩ := hw
      refine ⟨a :: l, by simp, [], l, rfl, fun y hy => hp y ?_⟩
      exact (shuffle_mem hs y).2 ⟨l, by simp, hy⟩
    | cons b pre =>
      simp only [List.cons_append, List.cons.injEq] at hw
      obtain ⟨rfl, hw⟩ := hw
      obtain ⟨m, hm, pre', post', rfl, hq⟩ := ih hw hp
      simp only [List.mem_append, List.mem_cons] at hm
      rcases hm with hm | rfl | hm
      · exact ⟨_, by simp [hm], pre', post', rfl, hq⟩
      · exact ⟨a :: (pre' ++ x :: post'), by simp, a :: pre', post', rfl, hq⟩
      · exact ⟨_, by simp [hm], pre', post', rfl, hq⟩

theorem shuffle_one {α : Type} (l : List α) : Shuffle [l] l := by
  induction l with
  | nil => exact .done (by simp)
  | cons x l ih => exact .step (pre := []) ih

theorem shuffle_nil {α : Type} {ls : List (List α)} {w : List α} (h : Shuffle ls w) : Shuffle ([] :: ls) w := by
  induction h with
  | done h => exact .done (by simpa using h)
  | @step pre post x l w _ ih => exact .step (pre := [] :: pre) ih

/-- There is always an interleaving: one list after the other. -/
theorem shuffle_exists {α : Type} (ls : List (List α)) : ∃ w, Shuffle ls w := by
  induction ls with
  | nil => exact ⟨[], .done (by simp)⟩
  | cons l ls ih =>
    obtain ⟨w, hw⟩ := ih
    induction l with
    | nil => exact ⟨w, shuffle_nil hw⟩
    | cons x l ih =>
      obtain ⟨w', hw'⟩ := ih
      exact ⟨x :: w', .step (pre := []) hw'⟩

theorem live_runs {st : Stmt} (h : live st = true) : ∃ tr, Runs st tr := by
  induction st with
  | skip => exact ⟨_, .skip⟩
  | reads rs => exact ⟨_, .reads rs⟩
  | assign l b a => exact ⟨_, .assign l b a⟩
  | branch k l => exact ⟨_, .branch k l⟩
  | dead => cases h
  | seq a b iha ihb =>
    simp only [live, Bool.and_eq_true] at h
    obtain ⟨u, hu⟩ := iha h.1
    obtain ⟨v, hv⟩ := ihb h.2
    exact ⟨_, .seq hu hv⟩
  | choose f a b iha ihb =>
    simp only [live, Bool.or_eq_true] at h
    rcases h with h | h
    · obtain ⟨u, hu⟩ := iha h; exact ⟨u, .first hu⟩
    · obtain ⟨u, hu⟩ := ihb h; exact ⟨u, .second hu⟩

theorem runsAll_mem {bs : List Stmt} {vs : List (List Wr)} (h : RunsAll bs vs) :
    (∀ v ∈ vs, ∃ b ∈ bs, Runs b v) ∧ ∀ b ∈ bs, ∃ v ∈ vs, Runs b v := by
  induction h with
  | nil => simp
  | cons hr _ ih =>
    constructor
    · intro v hv
      rcases List.mem_cons.1 hv with rfl | hv
      · exact ⟨_, List.mem_cons_self, hr⟩
      · obtain ⟨b, hb, hr⟩ := ih.1 v hv
        exact ⟨b, List.mem_cons_of_mem _ hb, hr⟩
    · intro b hb
      rcases List.mem_cons.1 hb with rfl | hb
      · exact ⟨_, List.mem_cons_self, hr⟩
      · obtain ⟨v, hv, hr⟩ := ih.2 b hb
        exact ⟨v, List.mem_cons_of_mem _ hv, hr⟩

/-- The last write in an interleaving is the last one on a path that takes only one of the branches. -/
theorem fork_last {blk : Bool} {st : Stmt} {bs : List Stmt} (hne : bs ≠ []) {tr : List Wr}
    (h : ForkRuns st bs tr) {y : Nat} {p : Int} {loc : TextLoc} (hl : LastAt blk tr y p loc) :
    ∃ b ∈ bs, ∃ t v, Runs st t ∧ Runs b v ∧ LastAt blk (t ++ v) y p loc := by
  obtain ⟨t, vs, w, h1, h2, h3, rfl⟩ := h
  obtain ⟨pre, x, post, he, hx, hloc, hpost⟩ := hl
  obtain ⟨g1, g2⟩ := runsAll_mem h2
  rcases List.append_eq_append_iff.1 he with ⟨a, ha, hw⟩ | ⟨a, ha, hw⟩
  · obtain ⟨l, hl, pre', post', rfl, hq⟩ := shuffle_last (P := Hits blk y p) h3 hw hpost
    obtain ⟨b, hb, hr⟩ := g1 _ hl
    exact ⟨b, hb, t, _, h1, hr, t ++ pre', x, post', by simp, hx, hloc, hq⟩
  · cases a with
    | nil =>
      simp only [List.append_nil, List.nil_append] at ha hw
      obtain ⟨l, hl, pre', post', rfl, hq⟩ := shuffle_last (P := Hits blk y p) h3 (pre := []) hw.symm hpost
      obtain ⟨b, hb, hr⟩ := g1 _ hl
      exact ⟨b, hb, t, _, h1, hr, t ++ pre', x, post', by simp, hx, hloc, hq⟩
    | cons z a =>
      simp only [List.cons_append, List.cons.injEq] at hw
      obtain ⟨rfl, rfl⟩ := hw
      obtain ⟨b, bs', rfl⟩ := List.exists_cons_of_ne_nil hne
      obtain ⟨v, hv, hr⟩ := g2 b (by simp)
      refine ⟨b, by simp, t, v, h1, hr, pre, x, a ++ v, by simp [ha], hx, hloc, fun z hz => ?_⟩
      rcases List.mem_append.1 hz with hz | hz
      · exact hpost z (by simp [hz])
      · exact hpost z (List.mem_append_right _ ((shuffle_mem h3 z).2 ⟨v, hv, hz⟩))

/-- Meeting a state: as joining, but the result is reachable only if both states are. -/
theorem meetState_ok {c : DfaCtx} {W : List Wr} (hW : Plain W) {s : Dfa} (hok : Ok c W s)
    {other : Flow} (ho : FlowOk W s.trk s.net other) :
    ∃ s', s.meetState other = .ok s' ∧ Ok c W s' ∧ Le [] s s' ∧
      s'.cur.reach = (s.cur.reach && other.reach) ∧
      (∀ T U, s.cur.reach = true → other.reach = true → Sem s T → Sem { s with cur := other } U →
        Sem s' fun tr => T tr ∨ U tr) := by
  unfold Dfa.meetState
  cases hr : other.reach with
  | false =>
    simp only [Bool.not_false, if_true, Bool.and_false]
    refine ⟨_, rfl, ⟨hok.net, hok.trk, ⟨hok.flow.drv, hok.flow.assign, hok.flow.node, hok.flow.cond⟩, hok.vars,
      hok.ext, hok.nba⟩, ⟨NetLe.refl _, TrkLe.refl _, ⟨[], by simp⟩, ⟨[], by simp, rfl⟩⟩, rfl, ?_⟩
    intro T U _ h; cases h
  | true =>
    simp only [Bool.not_true, Bool.false_eq_true, if_false, Bool.and_true]
    have heq : s.mergeStates other = s.joinState { other with reach := s.cur.reach } := by
      unfold Dfa.joinState
      rw [if_pos rfl]
      rfl
    have ho' : FlowOk W s.trk s.net { other with reach := s.cur.reach } := ⟨ho.drv, ho.assign, ho.node, ho.cond⟩
    obtain ⟨s', h1, h2, h3, h4, _, h6⟩ := joinState_ok hW hok ho'
    refine ⟨s', heq.trans h1, h2, h3, by simpa using h4, fun T U hs _ hT hU => h6 T U hT ?_⟩
    have : ({ other with reach := s.cur.reach } : Flow) = other := by rw [hs, ← hr]
    rw [this]; exact hU

/-- The state while the branches of a parallel block are visited. -/
theorem forkFrom_ok {c : DfaCtx} {W : List Wr} (hW : Plain W) {start : Flow} (bs : List Stmt) : ∀ s : Dfa,
    Ok c W s → FlowOk W s.trk s.net start → (∀ b ∈ bs, ∀ w ∈ allWrites b, w ∈ W) →
    ∃ s', s.forkFrom c start bs = .ok s' ∧ Ok c W s' ∧ Le (forkNba start.reach bs) s s' ∧
      s'.cur.reach = (s.cur.reach && bs.all fun b => start.reach && live b) ∧
      ∀ T U, s'.cur.reach = true → Sem s T → Sem { s with cur := start } U →
        Sem s' fun tr => T tr ∨ ∃ b ∈ bs, appS U b tr := by
  induction bs with
  | nil =>
    intro s hok _ _
    refine ⟨s, rfl, hok, Le.refl s, by simp, fun T U _ h _ => ?_⟩
    simpa using h
  | cons b bs ih =>
    intro s hok hst hw
    have hok0 : Ok c W ({ s with cur := start } : Dfa) := ⟨hok.net, hok.trk, hst, hok.vars, hok.ext, hok.nba⟩
    obtain ⟨s1, h1, h2, h3, h4, h5⟩ := exec_ok hW b _ hok0 (hw b (by simp))
    have hle : Le (nbaWrites start.reach b) s s1 := ⟨h3.net, h3.trk, h3.queue, h3.nba⟩
    have hok1 : Ok c W ({ s1 with cur := s.cur } : Dfa) :=
      ⟨h2.net, h2.trk, flowOk_mono hle.trk hle.net hok.flow, h2.vars, h2.ext, h2.nba⟩
    obtain ⟨s2, g1, g2, g3, g4, g5⟩ := meetState_ok hW hok1 (other := s1.cur) h2.flow
    have hle2 : Le (nbaWrites start.reach b) s s2 := by
      have := hle.trans (s3 := s2) ⟨g3.net, g3.trk, g3.queue, g3.nba⟩ h2
      simpa using this
    obtain ⟨s3, k1, k2, k3, k4, k5⟩ := ih s2 g2 (flowOk_mono hle2.trk hle2.net hst) fun x hx => hw x (by simp [hx])
    refine ⟨s3, by simp only [Dfa.forkFrom, h1, g1, k1], k2, ?_, ?_, fun T U hr hT hU => ?_⟩
    · exact hle2.trans k3 g2
    · rw [k4, g4]
      simp only [h4, List.all_cons, Bool.and_assoc]
    · have hr2 : s2.cur.reach = true := by
        rw [k4] at hr
        simp only [Bool.and_eq_true] at hr
        exact hr.1
      have hr1 : s.cur.reach = true ∧ s1.cur.reach = true := by
        rw [g4] at hr2
        simpa using hr2
      have a1 : Sem ({ s1 with cur := s.cur } : Dfa) T :=
        sem_mono (s' := { s1 with cur := s.cur }) hok.flow hle.trk hle.net rfl rfl hT
      have a2 : Sem s1 (appS U b) := h5 U hU
      have a3 := g5 T (appS U b) hr1.1 hr1.2 a1 a2
      have a4 : Sem ({ s2 with cur := start } : Dfa) U :=
        sem_mono (s := { s with cur := start }) (s' := { s2 with cur := start }) hst hle2.trk hle2.net rfl rfl hU
      have a5 := k5 _ U hr a3 a4
      have : (fun tr => T tr ∨ ∃ x ∈ b :: bs, appS U x tr) =
          fun tr => (T tr ∨ appS U b tr) ∨ ∃ x ∈ bs, appS U x tr := by
        funext tr
        simp only [List.mem_cons, exists_eq_or_imp, or_assoc]
      rw [this]; exact a5

end Verif.Proofs

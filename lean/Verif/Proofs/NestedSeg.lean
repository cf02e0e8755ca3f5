import Verif.Proofs.Nested
import Verif.Proofs.Jump

/-! Blocking assignments inside blocking assignments, in either walk. -/
namespace Verif.Proofs
open Verif.Model Verif.Spec

theorem visitE_ok {c : DfaCtx} {W : List Wr} (hW : Plain W) (v : EVis) :
    ∀ {node cond : Option Nat} {s : Dfa} {loc : TextLoc}, Ok c W s →
    (∀ n, node = some n → n ∈ s.net.g.nodes) → (∀ n, cond = some n → n ∈ s.net.g.nodes) →
    (OnlyReads v ∨ IsAssign s.net s.cur.node loc) → PlainLhs v → AllBlk v →
    (∀ w ∈ ownWrites loc true v, w ∈ W) →
    ∃ s', s.visitE c node cond true v = .ok (s', true) ∧ Ok c W s' ∧ Le [] s s' ∧ s'.cur.reach = s.cur.reach ∧
      ∀ T, Sem s T → Sem s' (app T (ownWrites loc true v)) := by
  induction v with
  | done =>
    intro node cond s loc hok _ _ _ _ _ _
    exact ⟨s, rfl, hok, .refl s, rfl, fun T h => by rw [ownWrites, app_nil]; exact h⟩
  | note x r ih =>
    intro node cond s loc hok hn hc hl hp hb hw
    have e : noteWrites loc true [x] =
        if x.write && !x.ref.auto then [⟨x.ref.sym, x.ref.bounds, loc, true⟩] else [] := by
      simp only [noteWrites, List.filter_cons, List.filter_nil]
      split <;> simp
    simp only [ownWrites, ← e] at hw ⊢
    obtain ⟨s1, a1, a2, a3, _, a5, _, a7⟩ := noteRefs_ok hW (blocking := true) (loc := loc) [x] s hok
      (by
        rintro ⟨y, hy, hyw⟩
        cases List.mem_singleton.1 hy
        rcases hl with hl | hl
        · rw [hl.1] at hyw; cases hyw
        · exact hl)
      (fun w h => hw w (List.mem_append_left _ h))
    have a1' : s.noteRef c true x = .ok s1 := by
      simp only [Dfa.noteRefs] at a1
      split at a1
      · cases a1
      · rename_i h'; rw [h', a1]
    have a3' : Le [] s s1 := by simpa using a3
    obtain ⟨s2, b1, b2, b3, b4, b5⟩ := ih (node := node) (cond := cond) (s := s1) (loc := loc) a2
      (fun n h => a3.net.nodes n (hn n h)) (fun n h => a3.net.nodes n (hc n h))
      (hl.imp (fun h => h.2) fun h => by rw [a5.node]; exact isAssign_mono a3.net h) hp hb
      (fun w h => hw w (List.mem_append_right _ h))
    refine ⟨s2, by simp only [Dfa.visitE, a1', b1], b2, by simpa using a3'.trans b3 a2, b4.trans a5.reach, fun T h => ?_⟩
    have := b5 _ (a7 T h)
    rwa [app_app] at this
  | src x r ih =>
    intro node cond s loc hok hn hc hl hp hb hw
    obtain ⟨s1, a1, a2⟩ := segSrc_ok hW true x hok
    have hok1 := a2.ok hok
    obtain ⟨s2, b1, b2, b3, b4, b5⟩ := ih (node := node) (cond := cond) (s := s1) (loc := loc) hok1
      (fun n h => a2.grow.net.nodes n (hn n h)) (fun n h => a2.grow.net.nodes n (hc n h))
      (hl.imp id fun h => by rw [a2.cur]; exact isAssign_mono a2.grow.net h) hp hb hw
    refine ⟨s2, by simp only [Dfa.visitE, a1, b1], b2, by simpa using a2.grow.le.trans b3 hok1,
      b4.trans (by rw [a2.cur]), fun T h => b5 _ (a2.grow.sem hok h)⟩
  | asg l k body r ihb ihr =>
    intro node cond s loc hok hn hc _ hp hb hw
    obtain ⟨rfl, hb1, hb2⟩ := hb
    simp only [ownWrites] at hw ⊢
    obtain ⟨s1, n, a1, a2, a3, a4, a5, _⟩ := startAssign_ok hok l
    obtain ⟨s2, b1, b2, b3, b4, b5⟩ := ihb (node := node) (cond := cond) (s := s1) (loc := l) a3
      (fun n h => a2.net.nodes n (hn n h)) (fun n h => a2.net.nodes n (hc n h))
      (.inr (by rw [a4]; exact a5)) hp.1 hb1 (fun w h => hw w (List.mem_append_left _ h))
    have h02 : Le [] s s2 := by simpa using a2.le.trans b3 a3
    obtain ⟨s3, d1, d2, d3, d4, d5⟩ := ihr (node := node) (cond := cond) (s := s2) (loc := loc) b2
      (fun n h => h02.net.nodes n (hn n h)) (fun n h => h02.net.nodes n (hc n h))
      (.inl hp.2.1) hp.2.2 hb2 (fun w h => hw w (List.mem_append_right _ h))
    refine ⟨s3, by simp only [Dfa.visitE, a1, b1, d1], d2, by simpa using h02.trans d3 b2,
      d4.trans (b4.trans a2.flow), fun T h => ?_⟩
    have := d5 _ (b5 _ (a2.sem hok h))
    rwa [app_app] at this
  | aligned k segs r ihb ihr =>
    intro node cond s loc hok hn hc _ hp hb hw
    obtain ⟨rfl, hb1, hb2⟩ := hb
    simp only [ownWrites] at hw ⊢
    obtain ⟨s1, b1, b2, b3, b4, b5⟩ := ihb (node := s.cur.node) (cond := s.cur.cond) (s := s) (loc := loc) hok
      hok.flow.node hok.flow.cond (.inl hp.2.2.2) hp.1 hb1 (fun w h => hw w (List.mem_append_left _ h))
    obtain ⟨s2, d1, d2, d3, d4, d5⟩ := ihr (node := node) (cond := cond) (s := s1) (loc := loc) b2
      (fun n h => b3.net.nodes n (hn n h)) (fun n h => b3.net.nodes n (hc n h))
      (.inl hp.2.1) hp.2.2.1 hb2 (fun w h => hw w (List.mem_append_right _ h))
    refine ⟨s2, by simp only [Dfa.visitE, b1, d1], d2, by simpa using b3.trans d3 b2, d4.trans b4, fun T h => ?_⟩
    have := d5 _ (b5 _ h)
    rwa [app_app] at this
  | seg l lhs body r ihb ihr =>
    intro node cond s loc hok hn hc _ hp hb hw
    simp only [ownWrites] at hw ⊢
    have hok0 : Ok c W ({ s with cur := { s.cur with node := node, cond := cond } } : Dfa) :=
      ⟨hok.net, hok.trk, ⟨hok.flow.drv, hok.flow.assign, hn, hc⟩, hok.vars, hok.ext, hok.nba⟩
    have hsem0 : ∀ T, Sem s T → Sem ({ s with cur := { s.cur with node := node, cond := cond } } : Dfa) T :=
      fun T h => ⟨h.reach, h.defs⟩
    obtain ⟨s1, n, a1, a2, a3, a4, a5, _⟩ := startAssign_ok hok0 l
    have h01 : Le [] s s1 := ⟨a2.net, a2.trk ▸ TrkLe.refl _, a2.queue, ⟨[], by simp [a2.nba], rfl⟩⟩
    obtain ⟨s2, e1, e2, e3, e4, e5, e6⟩ := segLhs_ok hW (blocking := true) (loc := l) lhs s1 a3
      (by rw [a4]; exact a5)
      (fun x hx => hw _ (List.mem_append_left _ (List.mem_append_left _ (List.mem_map.2 ⟨x, hx, rfl⟩))))
    have h02 : Le [] s s2 := by simpa using h01.trans e3 a3
    obtain ⟨s3, b1, b2, b3, b4, b5⟩ := ihb (node := node) (cond := cond) (s := s2) (loc := l) e2
      (fun n h => h02.net.nodes n (hn n h)) (fun n h => h02.net.nodes n (hc n h))
      (.inr (by rw [e5.node, e4, a4]; exact a5)) hp.1 hb.1
      (fun w h => hw w (List.mem_append_left _ (List.mem_append_right _ h)))
    have h03 : Le [] s s3 := by simpa using h02.trans b3 e2
    obtain ⟨s4, d1, d2, d3, d4, d5⟩ := ihr (node := node) (cond := cond) (s := s3) (loc := loc) b2
      (fun n h => h03.net.nodes n (hn n h)) (fun n h => h03.net.nodes n (hc n h))
      (.inl hp.2.1) hp.2.2 hb.2 (fun w h => hw w (List.mem_append_right _ h))
    refine ⟨s4, by simp only [Dfa.visitE, a1, e1, b1, d1], d2, by simpa using h03.trans d3 b2,
      d4.trans (b4.trans (e5.reach.trans a2.flow)), fun T h => ?_⟩
    have := d5 _ (b5 _ (e6 _ (a2.sem hok0 (hsem0 T h))))
    rw [app_app, app_app, ← List.append_assoc] at this
    exact this

theorem ownWrites_blk (v : EVis) (h : AllBlk v) (loc : TextLoc) : ∀ w ∈ ownWrites loc true v, w.blocking = true := by
  induction v generalizing loc with
  | done => intro w hw; cases hw
  | note x r ih =>
    intro w hw
    rcases List.mem_append.1 hw with hw | hw
    · split at hw
      · cases List.mem_singleton.1 hw; rfl
      · cases hw
    · exact ih h loc w hw
  | src x r ih => exact ih h loc
  | asg l k body r ihb ihr =>
    obtain ⟨rfl, h1, h2⟩ := h
    intro w hw
    rcases List.mem_append.1 hw with hw | hw
    · exact ihb h1 l w hw
    · exact ihr h2 loc w hw
  | aligned k body r ihb ihr =>
    obtain ⟨rfl, h1, h2⟩ := h
    intro w hw
    rcases List.mem_append.1 hw with hw | hw
    · exact ihb h1 loc w hw
    · exact ihr h2 loc w hw
  | seg l lhs body r ihb ihr =>
    intro w hw
    rcases List.mem_append.1 hw with hw | hw
    · rcases List.mem_append.1 hw with hw | hw
      · obtain ⟨x, _, rfl⟩ := List.mem_map.1 hw; rfl
      · exact ihb h.1 l w hw
    · exact ihr h.2 loc w hw

/-- Paths followed by those of a statement. -/
def appN (T : List Wr → Prop) (st : NStmt) (tr : List Wr) : Prop := ∃ u v, T u ∧ NRuns st v ∧ tr = u ++ v

theorem execN_ok {c : DfaCtx} {W : List Wr} (hW : Plain W) (st : NStmt) : ∀ s : Dfa, Ok c W s → NBlk st →
    NPlainLhs st → (∀ w ∈ nWrites st, w ∈ W) →
    ∃ s', s.execN c st = .ok s' ∧ Ok c W s' ∧ Le (nNba s.cur.reach st) s s' ∧
      s'.cur.reach = (s.cur.reach && nLive st) ∧ ∀ T, Sem s T → Sem s' (appN T st) := by
  induction st with
  | plain st =>
    intro s hok _ _ hw
    obtain ⟨s1, h1, h2, h3, h4, h5⟩ := exec_ok hW st s hok hw
    refine ⟨s1, h1, h2, h3, h4, fun T h => ?_⟩
    have e : appN T (.plain st) = appS T st := by
      funext tr
      simp only [appN, appS, eq_iff_iff]
      constructor
      · rintro ⟨u, v, hu, hr, rfl⟩; cases hr with | plain hr => exact ⟨u, v, hu, hr, rfl⟩
      · rintro ⟨u, v, hu, hr, rfl⟩; exact ⟨u, v, hu, .plain hr, rfl⟩
    rw [e]
    exact h5 T h
  | expr v =>
    intro s hok hb hp hw
    obtain ⟨s1, h1, h2, h3, h4, h5⟩ := visitE_ok hW v (node := none) (cond := none) (loc := {}) hok
      (by simp) (by simp) (.inl hb.2) hp hb.1 hw
    refine ⟨s1, by simp only [Dfa.execN, h1], h2, ?_, by simp [nLive, h4], fun T h => ?_⟩
    · have e : (exprWrites v).filter (fun w => !w.blocking) = [] := by
        rw [List.filter_eq_nil_iff]
        intro w hw'
        simp [ownWrites_blk v hb.1 {} w hw']
      simp only [nNba, e, ite_self]
      exact h3
    · have e : appN T (.expr v) = app T (exprWrites v) := by
        funext tr
        simp only [appN, app, eq_iff_iff]
        constructor
        · rintro ⟨u, v, hu, hr, rfl⟩; cases hr; exact ⟨u, hu, rfl⟩
        · rintro ⟨u, hu, rfl⟩; exact ⟨u, _, hu, .expr v, rfl⟩
      rw [e]
      exact h5 T h
  | seq a b iha ihb =>
    intro s hok hb hp hw
    obtain ⟨s1, h1, h2, h3, h4, h5⟩ := iha s hok hb.1 hp.1 fun w h => hw w (List.mem_append_left _ h)
    obtain ⟨s2, g1, g2, g3, g4, g5⟩ := ihb s1 h2 hb.2 hp.2 fun w h => hw w (List.mem_append_right _ h)
    refine ⟨s2, by simp only [Dfa.execN, h1, g1], g2, ?_, by rw [g4, h4, nLive, Bool.and_assoc], fun T h => ?_⟩
    · rw [h4] at g3
      exact h3.trans g3 h2
    · have e : appN T (.seq a b) = appN (appN T a) b := by
        funext tr
        simp only [appN, eq_iff_iff]
        constructor
        · rintro ⟨u, v, hu, hr, rfl⟩
          cases hr with
          | seq r1 r2 => exact ⟨_, _, ⟨u, _, hu, r1, rfl⟩, r2, by simp⟩
        · rintro ⟨_, v2, ⟨u, v1, hu, r1, rfl⟩, r2, rfl⟩
          exact ⟨u, _, hu, .seq r1 r2, by simp⟩
      rw [e]
      exact g5 _ (h5 T h)
  | choose f a b iha ihb =>
    intro s hok hb hp hw
    obtain ⟨s1, h1, h2, h3, h4, h5⟩ := iha s hok hb.1 hp.1 fun w h => hw w (List.mem_append_left _ h)
    have hokS : Ok c W ({ s1 with cur := s.cur } : Dfa) :=
      ⟨h2.net, h2.trk, flowOk_mono h3.trk h3.net hok.flow, h2.vars, h2.ext, h2.nba⟩
    obtain ⟨s2, g1, g2, g3, g4, g5⟩ := ihb _ hokS hb.2 hp.2 fun w h => hw w (List.mem_append_right _ h)
    have hle12 : Le (nNba s.cur.reach b) s1 s2 := ⟨g3.net, g3.trk, g3.queue, g3.nba⟩
    have hflow1 : FlowOk W s2.trk s2.net s1.cur := flowOk_mono hle12.trk hle12.net h2.flow
    obtain ⟨s3, k1, k2, k3, k4, k5⟩ := joinEither_ok hW g2 hflow1 f
    refine ⟨s3, by simp only [Dfa.execN, h1, g1]; exact k1, k2, ?_, ?_, fun T h => ?_⟩
    · have := (h3.trans hle12 h2).trans k3 g2
      simpa [nNba] using this
    · rw [k4, h4, g4, nLive]
      simp only
      cases s.cur.reach <;> simp
    · have e : appN T (.choose f a b) = fun tr => appN T a tr ∨ appN T b tr := by
        funext tr
        simp only [appN, eq_iff_iff]
        constructor
        · rintro ⟨u, v, hu, hr, rfl⟩
          cases hr with
          | first r => exact .inl ⟨u, v, hu, r, rfl⟩
          | second r => exact .inr ⟨u, v, hu, r, rfl⟩
        · rintro (⟨u, v, hu, hr, rfl⟩ | ⟨u, v, hu, hr, rfl⟩)
          · exact ⟨u, v, hu, .first hr, rfl⟩
          · exact ⟨u, v, hu, .second hr, rfl⟩
      rw [e]
      refine k5 _ _ ?_ ?_
      · exact sem_mono (s' := { s2 with cur := s1.cur }) h2.flow hle12.trk hle12.net rfl rfl (h5 T h)
      · exact g5 T (sem_mono (s' := { s1 with cur := s.cur }) hok.flow h3.trk h3.net rfl rfl h)

end Verif.Proofs

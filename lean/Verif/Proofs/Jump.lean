import Verif.Proofs.DataflowRead
import Verif.Proofs.Fork
import Verif.Spec.Jump

/-! The states during the visit of statements with jumps. -/
namespace Verif.Proofs
open Verif.Model Verif.Spec

/-- Several states together agree with a set of paths. -/
inductive SemAll (s : Dfa) : List Flow → (List Wr → Prop) → Prop
  | nil : SemAll s [] fun _ => False
  | cons {f : Flow} {fs : List Flow} {T U : List Wr → Prop} : Sem { s with cur := f } T → SemAll s fs U →
    SemAll s (f :: fs) fun tr => T tr ∨ U tr

theorem semAll_append {s : Dfa} {fs gs : List Flow} {T U : List Wr → Prop} (h : SemAll s fs T) (k : SemAll s gs U) :
    SemAll s (fs ++ gs) fun tr => T tr ∨ U tr := by
  induction h with
  | nil => simpa using k
  | cons h _ ih =>
    simp only [or_assoc]
    exact .cons h ih

theorem semAll_mono {W : List Wr} {s s' : Dfa} (ht : TrkLe s.trk s'.trk) (hn : NetLe s.net s'.net) {fs : List Flow}
    {T : List Wr → Prop} (h : SemAll s fs T) (hf : ∀ f ∈ fs, FlowOk W s.trk s.net f) : SemAll s' fs T := by
  induction h with
  | nil => exact .nil
  | @cons f _ _ _ h _ ih =>
    exact .cons (sem_mono (s := { s with cur := f }) (s' := { s' with cur := f }) (hf _ (by simp)) ht hn rfl rfl h)
      (ih fun x hx => hf x (by simp [hx]))

/-- Joining several states. -/
theorem joinAll_ok {c : DfaCtx} {W : List Wr} (hW : Plain W) (fs : List Flow) : ∀ s : Dfa, Ok c W s →
    (∀ f ∈ fs, FlowOk W s.trk s.net f) →
    ∃ s', s.joinAll fs = .ok s' ∧ Ok c W s' ∧ Le [] s s' ∧
      s'.cur.reach = (s.cur.reach || fs.any (·.reach)) ∧
      ∀ T U, Sem s T → SemAll s fs U → Sem s' fun tr => T tr ∨ U tr := by
  induction fs with
  | nil =>
    intro s hok _
    refine ⟨s, rfl, hok, Le.refl s, by simp, fun T U h k => ?_⟩
    cases k
    simpa using h
  | cons f fs ih =>
    intro s hok hf
    obtain ⟨s1, h1, h2, h3, h4, _, h5⟩ := joinState_ok hW hok (hf f (by simp))
    have hf1 : ∀ g ∈ fs, FlowOk W s.trk s.net g := fun g hg => hf g (by simp [hg])
    obtain ⟨s2, g1, g2, g3, g4, g5⟩ := ih s1 h2 fun g hg => flowOk_mono h3.trk h3.net (hf1 g hg)
    refine ⟨s2, by simp only [Dfa.joinAll, h1, g1], g2, ?_, ?_, fun T U h k => ?_⟩
    · simpa using h3.trans g3 h2
    · rw [g4, h4, List.any_cons, Bool.or_assoc]
    · cases k with
      | cons a b =>
        have := g5 _ _ (h5 _ _ h a) (semAll_mono h3.trk h3.net b hf1)
        simpa only [or_assoc] using this

/-- Joining in either direction. -/
theorem joinEither_ok {c : DfaCtx} {W : List Wr} (hW : Plain W) {s : Dfa} (hok : Ok c W s) {f : Flow}
    (hf : FlowOk W s.trk s.net f) (into : Bool) :
    ∃ s', (if into then ({ s with cur := f } : Dfa).joinState s.cur else s.joinState f) = .ok s' ∧ Ok c W s' ∧
      Le [] s s' ∧ s'.cur.reach = (f.reach || s.cur.reach) ∧
      ∀ T U, Sem { s with cur := f } T → Sem s U → Sem s' fun tr => T tr ∨ U tr := by
  cases into with
  | true =>
    have hok2 : Ok c W ({ s with cur := f } : Dfa) := ⟨hok.net, hok.trk, hf, hok.vars, hok.ext, hok.nba⟩
    obtain ⟨s3, k1, k2, k3, k4, _, k5⟩ := joinState_ok hW hok2 (other := s.cur) hok.flow
    exact ⟨s3, k1, k2, ⟨k3.net, k3.trk, k3.queue, k3.nba⟩, k4, fun T U h k => k5 T U h k⟩
  | false =>
    obtain ⟨s3, k1, k2, k3, k4, _, k5⟩ := joinState_ok hW hok (other := f) hf
    refine ⟨s3, k1, k2, k3, by rw [k4, Bool.or_comm], fun T U h k => ?_⟩
    have := k5 U T k h
    simpa only [or_comm] using this

/-- Paths followed by those of a statement with jumps that end in a given way. -/
def appJ (T : List Wr → Prop) (a : JStmt) (o : Option Nat) (tr : List Wr) : Prop :=
  ∃ u v, T u ∧ JRuns a v o ∧ tr = u ++ v

theorem appJ_plain (T : List Wr → Prop) (st : Stmt) :
    appJ T (.plain st) none = appS T st ∧ ∀ k, appJ T (.plain st) (some k) = fun _ => False := by
  refine ⟨?_, fun k => ?_⟩
  · funext tr
    simp only [appJ, appS, eq_iff_iff]
    constructor
    · rintro ⟨u, v, h, hr, rfl⟩; cases hr with | plain hr => exact ⟨u, v, h, hr, rfl⟩
    · rintro ⟨u, v, h, hr, rfl⟩; exact ⟨u, v, h, .plain hr, rfl⟩
  · funext tr
    simp only [appJ, eq_iff_iff, iff_false]
    rintro ⟨u, v, h, hr, rfl⟩; cases hr

theorem appJ_seq (T : List Wr → Prop) (a b : JStmt) :
    appJ T (.seq a b) none = appJ (appJ T a none) b none ∧
    ∀ k, appJ T (.seq a b) (some k) = fun tr => appJ T a (some k) tr ∨ appJ (appJ T a none) b (some k) tr := by
  refine ⟨?_, fun k => ?_⟩
  · funext tr
    simp only [appJ, eq_iff_iff]
    constructor
    · rintro ⟨u, v, h, hr, rfl⟩
      cases hr with | seq h1 h2 => exact ⟨_, _, ⟨u, _, h, h1, rfl⟩, h2, by simp⟩
    · rintro ⟨_, v, ⟨u, w, h, h1, rfl⟩, h2, rfl⟩
      exact ⟨u, w ++ v, h, .seq h1 h2, by simp⟩
  · funext tr
    simp only [appJ, eq_iff_iff]
    constructor
    · rintro ⟨u, v, h, hr, rfl⟩
      cases hr with
      | seq h1 h2 => exact .inr ⟨_, _, ⟨u, _, h, h1, rfl⟩, h2, by simp⟩
      | away h1 => exact .inl ⟨u, v, h, h1, rfl⟩
    · rintro (⟨u, v, h, h1, rfl⟩ | ⟨_, v, ⟨u, w, h, h1, rfl⟩, h2, rfl⟩)
      · exact ⟨u, v, h, .away h1, rfl⟩
      · exact ⟨u, w ++ v, h, .seq h1 h2, by simp⟩

theorem appJ_choose (T : List Wr → Prop) (f : Bool) (a b : JStmt) (o : Option Nat) :
    appJ T (.choose f a b) o = fun tr => appJ T a o tr ∨ appJ T b o tr := by
  funext tr
  simp only [appJ, eq_iff_iff]
  constructor
  · rintro ⟨u, v, h, hr, rfl⟩
    cases hr with
    | first h1 => exact .inl ⟨u, v, h, h1, rfl⟩
    | second h1 => exact .inr ⟨u, v, h, h1, rfl⟩
  · rintro (⟨u, v, h, h1, rfl⟩ | ⟨u, v, h, h1, rfl⟩)
    · exact ⟨u, v, h, .first h1, rfl⟩
    · exact ⟨u, v, h, .second h1, rfl⟩

theorem appJ_scope (T : List Wr → Prop) (a : JStmt) :
    appJ T (.scope a) none = (fun tr => appJ T a none tr ∨ appJ T a (some 0) tr) ∧
    ∀ k, appJ T (.scope a) (some k) = appJ T a (some (k + 1)) := by
  refine ⟨?_, fun k => ?_⟩
  · funext tr
    simp only [appJ, eq_iff_iff]
    constructor
    · rintro ⟨u, v, h, hr, rfl⟩
      cases hr with
      | through h1 => exact .inl ⟨u, v, h, h1, rfl⟩
      | here h1 => exact .inr ⟨u, v, h, h1, rfl⟩
    · rintro (⟨u, v, h, h1, rfl⟩ | ⟨u, v, h, h1, rfl⟩)
      · exact ⟨u, v, h, .through h1, rfl⟩
      · exact ⟨u, v, h, .here h1, rfl⟩
  · funext tr
    simp only [appJ, eq_iff_iff]
    constructor
    · rintro ⟨u, v, h, hr, rfl⟩
      cases hr with | out h1 => exact ⟨u, v, h, h1, rfl⟩
    · rintro ⟨u, v, h, h1, rfl⟩
      exact ⟨u, v, h, .out h1, rfl⟩

/-- The states after a statement with jumps, and those kept at the jumps. -/
theorem execJ_ok {c : DfaCtx} {W : List Wr} (hW : Plain W) (a : JStmt) : ∀ s : Dfa, Ok c W s →
    (∀ w ∈ jumpWrites a, w ∈ W) →
    ∃ s' l, s.execJ c a = .ok (s', l) ∧ Ok c W s' ∧ Le (jumpNba s.cur.reach a) s s' ∧
      s'.cur.reach = (s.cur.reach && jumpEnds a) ∧ (∀ k, ∀ f ∈ l k, FlowOk W s'.trk s'.net f) ∧
      (∀ k, (l k).any (·.reach) = (s.cur.reach && jumpLeaves k a)) ∧
      ∀ T, Sem s T → Sem s' (appJ T a none) ∧ ∀ k, SemAll s' (l k) (appJ T a (some k)) := by
  induction a with
  | plain st =>
    intro s hok hw
    obtain ⟨s1, h1, h2, h3, h4, h5⟩ := exec_ok hW st s hok hw
    refine ⟨s1, fun _ => [], by simp only [Dfa.execJ, h1], h2, h3, h4, by simp, by simp [jumpLeaves], fun T h => ?_⟩
    rw [(appJ_plain T st).1]
    refine ⟨h5 T h, fun k => ?_⟩
    rw [(appJ_plain T st).2]
    exact .nil
  | jump k =>
    intro s hok _
    refine ⟨_, _, rfl, ⟨hok.net, hok.trk, ⟨drvOk_empty _ _, fun _ _ _ h => absurd h dAt_empty, by simp, by simp⟩, hok.vars,
      hok.ext, hok.nba⟩, ⟨NetLe.refl _, TrkLe.refl _, ⟨[], by simp⟩, ⟨[], by simp, rfl⟩⟩, by simp [jumpEnds], ?_, ?_, ?_⟩
    · intro j f hf
      by_cases h : j = k
      · simp [h] at hf; subst hf; exact hok.flow
      · simp [h] at hf
    · intro j
      by_cases h : j = k <;> simp [h, jumpLeaves]
    · intro T hT
      have hnone : appJ T (.jump k) none = fun _ => False := by
        funext tr
        simp only [appJ, eq_iff_iff, iff_false]
        rintro ⟨u, v, h, hr, rfl⟩; cases hr
      refine ⟨?_, fun j => ?_⟩
      · rw [hnone]
        exact ⟨by simp, fun h => by cases h⟩
      · by_cases h : j = k
        · subst h
          have hj : appJ T (.jump j) (some j) = fun tr => T tr ∨ False := by
            funext tr
            simp only [appJ, eq_iff_iff, or_false]
            constructor
            · rintro ⟨u, v, h, hr, rfl⟩; cases hr; simpa using h
            · intro h; exact ⟨tr, [], h, .jump j, by simp⟩
          rw [hj, if_pos rfl]
          exact .cons ⟨hT.reach, hT.defs⟩ .nil
        · have hj : appJ T (.jump k) (some j) = fun _ => False := by
            funext tr
            simp only [appJ, eq_iff_iff, iff_false]
            rintro ⟨u, v, _, hr, rfl⟩; cases hr; exact h rfl
          rw [hj, if_neg h]
          exact .nil
  | seq a b iha ihb =>
    intro s hok hw
    obtain ⟨s1, l1, h1, h2, h3, h4, h5, h6, h7⟩ := iha s hok fun w h => hw w (List.mem_append_left _ h)
    obtain ⟨s2, l2, g1, g2, g3, g4, g5, g6, g7⟩ := ihb s1 h2 fun w h => hw w (List.mem_append_right _ h)
    refine ⟨s2, _, by simp only [Dfa.execJ, h1, g1]; rfl, g2, ?_, ?_, ?_, ?_, fun T h => ?_⟩
    · have := h3.trans g3 h2
      rwa [h4] at this
    · rw [g4, h4, jumpEnds, Bool.and_assoc]
    · intro k f hf
      rcases List.mem_append.1 hf with hf | hf
      · exact flowOk_mono g3.trk g3.net (h5 k f hf)
      · exact g5 k f hf
    · intro k
      rw [List.any_append, h6, g6, h4, jumpLeaves]
      cases s.cur.reach <;> simp
    · obtain ⟨a1, a2⟩ := h7 T h
      obtain ⟨b1, b2⟩ := g7 _ a1
      refine ⟨(appJ_seq T a b).1 ▸ b1, fun k => ?_⟩
      rw [(appJ_seq T a b).2]
      exact semAll_append (semAll_mono g3.trk g3.net (a2 k) (h5 k)) (b2 k)
  | choose f a b iha ihb =>
    intro s hok hw
    obtain ⟨s1, l1, h1, h2, h3, h4, h5, h6, h7⟩ := iha s hok fun w h => hw w (List.mem_append_left _ h)
    have hokS : Ok c W ({ s1 with cur := s.cur } : Dfa) :=
      ⟨h2.net, h2.trk, flowOk_mono h3.trk h3.net hok.flow, h2.vars, h2.ext, h2.nba⟩
    obtain ⟨s2, l2, g1, g2, g3, g4, g5, g6, g7⟩ := ihb _ hokS fun w h => hw w (List.mem_append_right _ h)
    have hle12 : Le (jumpNba s.cur.reach b) s1 s2 := ⟨g3.net, g3.trk, g3.queue, g3.nba⟩
    have hflow1 : FlowOk W s2.trk s2.net s1.cur := flowOk_mono hle12.trk hle12.net h2.flow
    have hsemS : ∀ T, Sem s T → Sem ({ s1 with cur := s.cur } : Dfa) T := fun T h =>
      sem_mono (s' := { s1 with cur := s.cur }) hok.flow h3.trk h3.net rfl rfl h
    obtain ⟨s3, k1, k2, k3, k4, k5⟩ := joinEither_ok hW g2 hflow1 f
    have hle13 := hle12.net.trans k3.net
    have hlt13 := hle12.trk.trans k3.trk
    refine ⟨s3, _, by simp only [Dfa.execJ, h1, g1, k1]; rfl, k2, ?_, ?_, ?_, ?_, fun T h => ?_⟩
    · have := (h3.trans hle12 h2).trans k3 g2
      simpa [jumpNba] using this
    · rw [k4, jumpEnds]
      simp only [h4, g4]
      cases s.cur.reach <;> simp
    · intro k f hf
      rcases List.mem_append.1 hf with hf | hf
      · exact flowOk_mono hlt13 hle13 (h5 k f hf)
      · exact flowOk_mono k3.trk k3.net (g5 k f hf)
    · intro k
      rw [List.any_append, h6, g6, jumpLeaves]
      cases s.cur.reach <;> simp
    · obtain ⟨a1, a2⟩ := h7 T h
      obtain ⟨b1, b2⟩ := g7 T (hsemS T h)
      refine ⟨?_, fun k => ?_⟩
      · rw [appJ_choose]
        exact k5 _ _ (sem_mono (s' := { s2 with cur := s1.cur }) h2.flow hle12.trk hle12.net rfl rfl a1) b1
      · rw [appJ_choose]
        exact semAll_append (semAll_mono hlt13 hle13 (a2 k) (h5 k)) (semAll_mono k3.trk k3.net (b2 k) (g5 k))
  | scope a ih =>
    intro s hok hw
    obtain ⟨s1, l1, h1, h2, h3, h4, h5, h6, h7⟩ := ih s hok hw
    obtain ⟨s2, g1, g2, g3, g4, g5⟩ := joinAll_ok hW (l1 0) s1 h2 (h5 0)
    refine ⟨s2, _, by simp only [Dfa.execJ, h1, g1]; rfl, g2, ?_, ?_, ?_, ?_, fun T h => ?_⟩
    · have := h3.trans g3 h2
      simpa [jumpNba] using this
    · rw [g4, h4, h6, jumpEnds]
      cases s.cur.reach <;> simp
    · exact fun k f hf => flowOk_mono g3.trk g3.net (h5 (k + 1) f hf)
    · exact fun k => h6 (k + 1)
    · obtain ⟨a1, a2⟩ := h7 T h
      refine ⟨?_, fun k => ?_⟩
      · rw [(appJ_scope T a).1]
        exact g5 _ _ a1 (a2 0)
      · rw [(appJ_scope T a).2]
        exact semAll_mono g3.trk g3.net (a2 (k + 1)) (h5 (k + 1))

theorem live_of_runs {st : Stmt} {tr : List Wr} (h : Runs st tr) : live st = true := by
  induction h <;> simp_all [live]

/-- Whether a statement can end in a way is what `jumpEnds` and `jumpLeaves` say. -/
theorem jump_runs (a : JStmt) : (jumpEnds a = true ↔ ∃ t, JRuns a t none) ∧
    ∀ k, jumpLeaves k a = true ↔ ∃ t, JRuns a t (some k) := by
  induction a with
  | plain s =>
    refine ⟨⟨fun h => ?_, ?_⟩, fun k => ⟨fun h => by simp [jumpLeaves] at h, ?_⟩⟩
    · obtain ⟨t, ht⟩ := live_runs h; exact ⟨t, .plain ht⟩
    · rintro ⟨t, h⟩; cases h with | plain h => exact live_of_runs h
    · rintro ⟨t, h⟩; cases h
  | jump j =>
    refine ⟨⟨fun h => by simp [jumpEnds] at h, ?_⟩, fun k => ⟨fun h => ?_, ?_⟩⟩
    · rintro ⟨t, h⟩; cases h
    · simp only [jumpLeaves, beq_iff_eq] at h; subst h; exact ⟨[], .jump k⟩
    · rintro ⟨t, h⟩; cases h; simp [jumpLeaves]
  | seq a b iha ihb =>
    refine ⟨⟨fun h => ?_, ?_⟩, fun k => ⟨fun h => ?_, ?_⟩⟩
    · simp only [jumpEnds, Bool.and_eq_true] at h
      obtain ⟨t, ht⟩ := iha.1.1 h.1
      obtain ⟨v, hv⟩ := ihb.1.1 h.2
      exact ⟨t ++ v, .seq ht hv⟩
    · rintro ⟨t, h⟩
      cases h with
      | seq h1 h2 => simp only [jumpEnds, Bool.and_eq_true]; exact ⟨iha.1.2 ⟨_, h1⟩, ihb.1.2 ⟨_, h2⟩⟩
    · simp only [jumpLeaves, Bool.or_eq_true, Bool.and_eq_true] at h
      rcases h with h | ⟨h, h'⟩
      · obtain ⟨t, ht⟩ := (iha.2 k).1 h; exact ⟨t, .away ht⟩
      · obtain ⟨t, ht⟩ := iha.1.1 h
        obtain ⟨v, hv⟩ := (ihb.2 k).1 h'
        exact ⟨t ++ v, .seq ht hv⟩
    · rintro ⟨t, h⟩
      simp only [jumpLeaves, Bool.or_eq_true, Bool.and_eq_true]
      cases h with
      | seq h1 h2 => exact .inr ⟨iha.1.2 ⟨_, h1⟩, (ihb.2 k).2 ⟨_, h2⟩⟩
      | away h1 => exact .inl ((iha.2 k).2 ⟨_, h1⟩)
  | choose f a b iha ihb =>
    refine ⟨⟨fun h => ?_, ?_⟩, fun k => ⟨fun h => ?_, ?_⟩⟩
    · simp only [jumpEnds, Bool.or_eq_true] at h
      rcases h with h | h
      · obtain ⟨t, ht⟩ := iha.1.1 h; exact ⟨t, .first ht⟩
      · obtain ⟨t, ht⟩ := ihb.1.1 h; exact ⟨t, .second ht⟩
    · rintro ⟨t, h⟩
      simp only [jumpEnds, Bool.or_eq_true]
      cases h with
      | first h => exact .inl (iha.1.2 ⟨_, h⟩)
      | second h => exact .inr (ihb.1.2 ⟨_, h⟩)
    · simp only [jumpLeaves, Bool.or_eq_true] at h
      rcases h with h | h
      · obtain ⟨t, ht⟩ := (iha.2 k).1 h; exact ⟨t, .first ht⟩
      · obtain ⟨t, ht⟩ := (ihb.2 k).1 h; exact ⟨t, .second ht⟩
    · rintro ⟨t, h⟩
      simp only [jumpLeaves, Bool.or_eq_true]
      cases h with
      | first h => exact .inl ((iha.2 k).2 ⟨_, h⟩)
      | second h => exact .inr ((ihb.2 k).2 ⟨_, h⟩)
  | scope a ih =>
    refine ⟨⟨fun h => ?_, ?_⟩, fun k => ⟨fun h => ?_, ?_⟩⟩
    · simp only [jumpEnds, Bool.or_eq_true] at h
      rcases h with h | h
      · obtain ⟨t, ht⟩ := ih.1.1 h; exact ⟨t, .through ht⟩
      · obtain ⟨t, ht⟩ := (ih.2 0).1 h; exact ⟨t, .here ht⟩
    · rintro ⟨t, h⟩
      simp only [jumpEnds, Bool.or_eq_true]
      cases h with
      | through h => exact .inl (ih.1.2 ⟨_, h⟩)
      | here h => exact .inr ((ih.2 0).2 ⟨_, h⟩)
    · simp only [jumpLeaves] at h
      obtain ⟨t, ht⟩ := (ih.2 (k + 1)).1 h
      exact ⟨t, .out ht⟩
    · rintro ⟨t, h⟩
      simp only [jumpLeaves]
      cases h with | out h => exact (ih.2 (k + 1)).2 ⟨_, h⟩

end Verif.Proofs

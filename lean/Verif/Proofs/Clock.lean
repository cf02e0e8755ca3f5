import Verif.Spec.Clock
import Verif.Proofs.Influence

/-! Two runs of a design over time: where they can differ. -/
namespace Verif.Proofs
open Verif.Model Verif.Spec Verif.Props

variable {V : Type} {M : Meaning V} {E : TravEnv} {es : List Event} {cuts : CutReg}

/-! ### One clock edge -/

theorem sync_run {W : List Wr} {st : Stmt} (h : Sync W st) : ∀ (sel : Nat → Bool) (ρ : Vals V), run M st sel ρ = ρ := by
  induction h with
  | quiet h => exact quiet_run h
  | assign => intro sel ρ; rfl
  | cond _ _ _ ih => intro sel ρ; exact ih _ ρ
  | seq _ _ ih1 ih2 => intro sel ρ; rw [run, ih1, ih2]
  | choose _ _ ih1 ih2 => intro sel ρ; rw [run, ih1, ih2]; exact ite_self _

theorem sync_enter {W : List Wr} {s : Stmt} (h : Sync W s) (ρ : Vals V) (sel : Nat → Bool) : enter M ρ sel s = sel := by
  cases h with
  | quiet h => exact quiet_enter h ρ sel
  | _ => rfl

theorem sync_writes {W : List Wr} {st : Stmt} (h : Sync W st) : ∀ w ∈ allWrites st, w.blocking = false := by
  induction h with
  | quiet h => rw [quiet_writes h]; simp
  | @assign loc a _ =>
    intro w hw
    cases a with
    | legacy notes => simp only [allWrites, asgWrites, List.mem_map] at hw; obtain ⟨r, _, rfl⟩ := hw; rfl
    | aligned segs =>
      simp only [allWrites, asgWrites, List.mem_flatMap, List.mem_map] at hw; obtain ⟨g, _, r, _, rfl⟩ := hw; rfl
  | cond _ _ _ ih => intro w hw; exact ih w (by simpa [allWrites] using hw)
  | seq _ _ ih1 ih2 => intro w hw; exact (List.mem_append.1 hw).elim (ih1 w) (ih2 w)
  | choose _ _ ih1 ih2 => intro w hw; exact (List.mem_append.1 hw).elim (ih1 w) (ih2 w)

theorem quiet_live {s : Stmt} (h : Quiet s) : live s = true := by
  induction h with
  | skip => rfl
  | reads => rfl
  | seq _ _ ih1 ih2 => rw [live, ih1, ih2]; rfl

theorem quiet_nba {s : Stmt} (h : Quiet s) : ∀ r, nbaWrites r s = [] := by
  induction h with
  | skip => intro r; rfl
  | reads => intro r; rfl
  | seq _ _ ih1 ih2 => intro r; rw [nbaWrites, ih1, ih2]; rfl

theorem sync_live {W : List Wr} {st : Stmt} (h : Sync W st) : live st = true := by
  induction h with
  | quiet h => exact quiet_live h
  | assign => rfl
  | cond _ _ _ ih => simp [live, ih]
  | seq _ _ ih1 ih2 => rw [live, ih1, ih2]; rfl
  | choose _ _ ih1 ih2 => rw [live, ih1]; rfl

theorem sync_runs {W : List Wr} {st : Stmt} (h : Sync W st) : ∃ tr, Runs st tr := by
  induction h with
  | quiet h => exact ⟨_, quiet_runs h⟩
  | assign => exact ⟨_, .assign _ _ _⟩
  | cond _ _ _ ih => obtain ⟨tr, h⟩ := ih; exact ⟨_, .seq (.branch _ _) (.seq (.reads _) h)⟩
  | seq _ _ ih1 ih2 => obtain ⟨u, h1⟩ := ih1; obtain ⟨v, h2⟩ := ih2; exact ⟨_, .seq h1 h2⟩
  | choose _ _ ih1 _ => obtain ⟨u, h1⟩ := ih1; exact ⟨_, .first h1⟩

theorem sync_nba {W : List Wr} {st : Stmt} (h : Sync W st) : nbaWrites true st = allWrites st := by
  induction h with
  | quiet h => rw [quiet_nba h, quiet_writes h]
  | @assign loc a _ => cases a <;> rfl
  | cond _ _ _ ih => simp [nbaWrites, allWrites, live, ih]
  | seq h1 _ ih1 ih2 => rw [nbaWrites, allWrites, sync_live h1, ih1, Bool.and_self, ih2]
  | choose _ _ ih1 ih2 => rw [nbaWrites, allWrites, ih1, ih2]

theorem store_frame {ws : List Wr} (hb : ∀ w ∈ ws, w.blocking = false) (x : Nat) (p : Int) :
    ((∀ w ∈ ws, ¬ Hits false x p w) ∧ ∀ (ρ0 ρ : Vals V), store M ρ0 ws ρ x p = ρ x p) ∨
      ∃ w ∈ ws, Hits false x p w ∧ ∀ (ρ0 ρ : Vals V), store M ρ0 ws ρ x p = M.value w.loc ρ0 x p := by
  induction ws with
  | nil => exact .inl ⟨by simp, fun _ _ => rfl⟩
  | cons w ws ih =>
    rcases ih (fun v hv => hb v (.tail _ hv)) with ⟨h1, h2⟩ | ⟨v, h1, h2, h3⟩
    · by_cases hw : Hits false x p w
      · refine .inr ⟨w, .head _, hw, fun ρ0 ρ => ?_⟩
        rw [store, h2, if_pos ⟨hw.2.1, (inRng_iff _ _).1 hw.2.2⟩]
      · refine .inl ⟨List.forall_mem_cons.2 ⟨hw, h1⟩, fun ρ0 ρ => ?_⟩
        rw [store, h2, if_neg fun hc => hw ⟨hb w (.head _), hc.1, (inRng_iff _ _).2 hc.2⟩]
    · exact .inr ⟨v, .tail _ h1, h2, fun ρ0 ρ => by rw [store, h3]⟩

theorem quiet_later {s : Stmt} (h : Quiet s) : ∀ (sel : Nat → Bool) (ρ ν : Vals V), later M s sel ρ ν = ν := by
  induction h with
  | skip => intros; rfl
  | reads => intros; rfl
  | seq _ _ ih1 ih2 => intro sel ρ ν; rw [later, ih1, ih2]

/-- A bit that is not written keeps its value. -/
theorem later_frame {W : List Wr} {st : Stmt} (h : Sync W st) {x : Nat} {p : Int} :
    (∀ w ∈ allWrites st, ¬ Hits false x p w) → ∀ (sel : Nat → Bool) (ρ ν : Vals V), later M st sel ρ ν x p = ν x p := by
  induction h with
  | quiet h => intro _ sel ρ ν; rw [quiet_later h]
  | @assign loc a hf =>
    intro hn sel ρ ν
    rcases store_frame (M := M) (sync_writes (Sync.assign (loc := loc) (a := a) hf)) x p with ⟨_, h⟩ | ⟨w, hw, hh, _⟩
    · exact h ρ ν
    · exact absurd hh (hn w hw)
  | cond _ _ _ ih => intro hn sel ρ ν; exact ih (fun w hw => hn w (by simpa [allWrites] using hw)) _ ρ ν
  | seq h1 _ ih1 ih2 =>
    intro hn sel ρ ν
    rw [later, ih2 fun w hw => hn w (List.mem_append_right _ hw), ih1 fun w hw => hn w (List.mem_append_left _ hw)]
  | choose _ _ ih1 ih2 =>
    intro hn sel ρ ν
    rw [later]
    split
    · exact ih1 (fun w hw => hn w (List.mem_append_left _ hw)) _ ρ ν
    · exact ih2 (fun w hw => hn w (List.mem_append_right _ hw)) _ ρ ν

/-- A read of a non-blocking assignment is a use. -/
theorem sync_use {P : List Wr → Prop} {loc l : TextLoc} {a : Asg} {r : Ref} (h : AsgReads loc a l r) :
    Use P (.assign loc false a) (.assignment l) r P := by
  have ha : ∀ {a : Asg}, Apart (asgWrites loc false a) r := by
    intro a p _ w hw hh
    have : w.blocking = false := by
      cases a with
      | legacy notes => simp only [asgWrites, List.mem_map] at hw; obtain ⟨r, _, rfl⟩ := hw; rfl
      | aligned segs =>
        simp only [asgWrites, List.mem_flatMap, List.mem_map] at hw; obtain ⟨g, _, r, _, rfl⟩ := hw; rfl
    rw [hh.1] at this
    cases this
  cases h with
  | note h1 h2 => exact .note h1 h2 ha
  | seg h1 h2 h3 => exact .seg h1 h2 h3 ha

/-- Two clock edges from states in which the nodes outside `Bad` read the same: the bits that only those
write agree. -/
theorem later_agree {W : List Wr} {Bad : NodeData → Prop} {σ σ' : Vals V} {st : Stmt} (h : Sync W st) :
    ∀ {P : List Wr → Prop} {ν ν' : Vals V} {sel : Nat → Bool}, Reflects M st → (∃ tr, P tr) →
    (∀ who r Q, Use P st who r Q → (∃ tr, Q tr) → ReadFits W r.sym r.bounds → ∀ p, InRng r.bounds p →
      σ r.sym p ≠ σ' r.sym p → Bad who) → (∀ u v, Guards st u v → Bad u → Bad v) →
    ∀ x p, (∀ w ∈ allWrites st, Hits false x p w → ¬ Bad (.assignment w.loc)) → ν x p = ν' x p →
      later M st sel σ ν x p = later M st sel σ' ν' x p := by
  induction h with
  | quiet h => intro P ν ν' sel _ _ _ _ x p _ he; rw [quiet_later h, quiet_later h]; exact he
  | @assign loc a hf =>
    intro P ν ν' sel hr hP hu _ x p hw he
    rcases store_frame (M := M) (sync_writes (Sync.assign (loc := loc) (a := a) hf)) x p with ⟨_, h⟩ | ⟨w, h1, h2, h⟩
    · exact (h σ ν).trans (he.trans (h σ' ν').symm)
    · refine (h σ ν).trans (Eq.trans ?_ (h σ' ν').symm)
      refine congrFun (congrFun (hr w.loc (writes_locs w h1) σ σ' ?_) x) p
      rintro _ q ⟨r, hr, rfl, hq⟩
      exact Classical.byContradiction fun hne => hw w h1 h2 (hu _ r P (sync_use hr) hP (hf _ r hr) q hq hne)
  | @cond k loc rs t hb hct hf ih =>
    intro P ν ν' sel hr hP hu hg x p hw he
    obtain ⟨_, ⟨_, hrt, _⟩, hp⟩ := hr
    have hw' : ∀ w ∈ allWrites t, Hits false x p w → ¬ Bad (.assignment w.loc) :=
      fun w h => hw w (by simpa [allWrites] using h)
    show later M t (M.pick k loc σ) σ ν x p = later M t (M.pick k loc σ') σ' ν' x p
    by_cases hbad : Bad (if k then .case loc else .conditional loc)
    · have hall := brief_all hb (fun d hd => hg _ d (.here (.right (.reads _) hd)) hbad)
        (fun u v h => hg u v (.right (.right h)))
      have hno : ∀ w ∈ allWrites t, ¬ Hits false x p w := fun w h hh => hw' w h hh (hall w h)
      rw [later_frame hct hno, later_frame hct hno, he]
    · have he' : M.pick k loc σ = M.pick k loc σ' := by
        refine hp k loc rs t rfl rfl σ σ' ?_
        rintro _ q ⟨r, ⟨hr1, hr2⟩, rfl, hq⟩
        exact Classical.byContradiction fun hne => hbad (hu _ r P (.cond hr1 hr2) hP (hf r hr1 hr2) q hq hne)
      rw [← he']
      exact ih hrt hP (fun who r Q h => hu who r Q (.right (.right (by rw [after_quiet]; exact h))))
        (fun u v h => hg u v (.right (.right h))) x p hw' he
  | @seq s t hs ht ih1 ih2 =>
    intro P ν ν' sel hr hP hu hg x p hw he
    rw [later, later, sync_enter hs, sync_enter hs, sync_run hs, sync_run hs]
    obtain ⟨tr, htr⟩ := hP
    obtain ⟨v, hv⟩ := sync_runs hs
    exact ih2 hr.2.1 ⟨_, tr, v, htr, hv, rfl⟩ (fun who r Q h => hu who r Q (.right h))
      (fun u v h => hg u v (.right h)) x p (fun w h => hw w (List.mem_append_right _ h))
      (ih1 hr.1 ⟨tr, htr⟩ (fun who r Q h => hu who r Q (.left h)) (fun u v h => hg u v (.left h)) x p
        (fun w h => hw w (List.mem_append_left _ h)) he)
  | @choose f s t _ _ ih1 ih2 =>
    intro P ν ν' sel hr hP hu hg x p hw he
    rw [later, later]
    split
    · exact ih1 hr.1 hP (fun who r Q h => hu who r Q (.first h)) (fun u v h => hg u v (.first h)) x p
        (fun w h => hw w (List.mem_append_left _ h)) he
    · exact ih2 hr.2 hP (fun who r Q h => hu who r Q (.second h)) (fun u v h => hg u v (.second h)) x p
        (fun w h => hw w (List.mem_append_right _ h)) he

/-! ### Over time -/

variable {fire : Nat → Deferred → Bool} {σ σ' : Nat → Vals V}

/-- By time `t` an input whose values differ has been read by a node from which `d` can be reached. -/
def ReachedBy (E : TravEnv) (es : List Event) (cuts : CutReg) (σ σ' : Nat → Vals V) (t : Nat) (d : NodeData) : Prop :=
  ∃ t' ≤ t, ∃ s q z i who, Source E es cuts s q ∧ ¬ Held E es cuts s q ∧ σ t' s q ≠ σ' t' s q ∧ Brings E es s q z i ∧
    Sees es z i who ∧ Reach (Hands E es cuts) who d

theorem ReachedBy.tail {t : Nat} {u v : NodeData} (h : ReachedBy E es cuts σ σ' t u) (hv : Hands E es cuts u v) :
    ReachedBy E es cuts σ σ' t v := by
  obtain ⟨t', ht, s, q, z, i, who, h1, h2, h3, h4, h5, h6⟩ := h
  exact ⟨t', ht, s, q, z, i, who, h1, h2, h3, h4, h5, h6.tail hv⟩

theorem ReachedBy.mono {t t' : Nat} {u : NodeData} (h : ReachedBy E es cuts σ σ' t u) (ht : t ≤ t') :
    ReachedBy E es cuts σ σ' t' u := by
  obtain ⟨t0, h0, h⟩ := h
  exact ⟨t0, by omega, h⟩

theorem reached_chain {R : NodeData → NodeData → Prop} (hR : ∀ u v, R u v → Hands E es cuts u v) {t : Nat}
    {u v : NodeData} (h : ReachedBy E es cuts σ σ' t u) (hr : Reach R u v) : ReachedBy E es cuts σ σ' t v := by
  induction hr with
  | refl => exact h
  | tail _ h' ih => exact ih.tail (hR _ _ h')

theorem wellKept (ht : Timed E es cuts) {b : Deferred} (hb : b ∈ blocksOf es) (hc : Clocked b) {w : Wr}
    (hw : w ∈ allWrites b.stmt) : WellKept E es cuts b w := ⟨ht.range b hb hc w hw, ht.alone b hb hc w hw⟩

theorem wellKept_off {b : Deferred} {w : Wr} (h : WellKept E es cuts b w) : ¬ OnIface E es w.sym := by
  rintro (h1 | ⟨ds, h1⟩)
  · exact h.alone.1 h1
  · exact h.alone.2.1 _ h1 (by simp [declares])

theorem kept_off (ht : Timed E es cuts) {b : Deferred} (hb : b ∈ blocksOf es) {x j : Nat} (hk : Kept b x j) :
    ¬ OnIface E es x := by
  obtain ⟨hc, w, w1, _, rfl, _⟩ := hk
  exact wellKept_off (wellKept ht hb hc w1)

/-- No path to a read of a register has a blocking write of it. -/
theorem kept_unwritten (hr : Regular E es cuts) (ht : Timed E es cuts) {b b' : Deferred} (hb : b ∈ blocksOf es) {x j : Nat}
    (hk : Kept b x j) (hb' : b' ∈ blocksOf es) {who : NodeData} {r : Ref} {Q : List Wr → Prop}
    (hu : Use Start b'.stmt who r Q) {p : Int} (hp : InRng r.bounds p) :
    ∀ tr, Q tr → ∀ w ∈ tr, ¬ Hits true x p w := by
  intro tr htr w hw hh
  obtain ⟨u, v, g1, rfl, g3⟩ := use_paths hu tr htr
  cases g1
  have hw' : w ∈ allWrites b'.stmt := g3 w (by simpa using hw)
  by_cases hc : Clocked b'
  · have := sync_writes (ht.sync b' hb' hc) w hw'
    rw [hh.1] at this
    cases this
  · obtain ⟨i, rfl⟩ := Int.eq_ofNat_of_zero_le (hr.settled b' hb' hc who r Q hu p hp).1
    obtain ⟨⟨_, hba⟩, _⟩ := hr.assigned x i ⟨b', hb', hc, x, i, ⟨w, hw', hh⟩, .inl ⟨hc, rfl, rfl⟩⟩
    obtain ⟨hk1, v', hv, hhv⟩ := hk
    exact hba b hb hk1 v' hv hhv.2.1

/-- Where a difference in a source that is read comes from. -/
theorem source_reached (hr : Regular E es cuts) (ht : Timed E es cuts) (hs : ∀ t, Solves M E es (σ t))
    (hs' : ∀ t, Solves M E es (σ' t)) {t : Nat}
    (hreg : ∀ b ∈ blocksOf es, ∀ x j, Kept b x j → σ t x j ≠ σ' t x j →
      ∃ loc, Leaves b.stmt x j loc ∧ ReachedBy E es cuts σ σ' t (.assignment loc))
    {s q z i : Nat} {who : NodeData} (h1 : Source E es cuts s q) (h2 : σ t s q ≠ σ' t s q) (h3 : Brings E es s q z i)
    (h4 : Sees es z i who) : ReachedBy E es cuts σ σ' t who := by
  by_cases hh : Held E es cuts s q
  · obtain ⟨b, hb, x, j, hk, ha⟩ := hh
    rcases ha with ⟨rfl, rfl⟩ | ha
    · obtain ⟨loc, l1, l2⟩ := hreg b hb s q hk h2
      obtain ⟨hk1, w, hw, hww⟩ := hk
      have hk : Kept b s q := ⟨hk1, w, hw, hww⟩
      obtain ⟨b2, g1, r, Q, g2, g3, rfl, g5, g6, g7⟩ := h4
      cases h3 with
      | refl => exact l2.tail (.keep hb hk (kept_off ht hb hk) l1 g1 g2 g3 g6 rfl g5 fun p hp => kept_unwritten hr ht hb hk g1 g2 hp)
      | step h h3 =>
        obtain ⟨d0, d0'⟩ := hr.inlets _ _ _ _ h
        obtain ⟨d1, d2, d3⟩ := brings_down hr h3 d0 d0'
        exact l2.tail (.enter hb hk (kept_off ht hb hk) l1 h d1 g1 g2 g3 g6 rfl g5 g7 d3 d2)
    · have hv : σ t x j ≠ σ' t x j := by
        rwa [arrives_value hr (hs t) ha, arrives_value hr (hs' t) ha] at h2
      obtain ⟨loc, l1, l2⟩ := hreg b hb x j hk hv
      obtain ⟨o1, o2⟩ := ht.outs b hb x j s q hk ha
      obtain ⟨d1, d2, d3⟩ := brings_down hr h3 o1 o2
      obtain ⟨b2, g1, r, Q, g2, g3, rfl, g5, g6, g7⟩ := h4
      exact l2.tail (.out hb hk l1 ha d1 g1 g2 g3 g6 rfl g5 g7 d3 d2)
  · exact ⟨t, Nat.le_refl _, s, q, z, i, who, h1, hh, h2, h3, h4, .refl⟩

/-- A node that reads a bit whose values differ is reached. -/
theorem sees_reached (hr : Regular E es cuts) (ht : Timed E es cuts) (hf : Faithful M E es)
    (hs : ∀ t, Solves M E es (σ t)) (hs' : ∀ t, Solves M E es (σ' t)) (L : List NodeData)
    (hL : ∀ u v, Passes E es cuts u v → u ∈ L) (hac : ∀ d, ¬ OnCycle (Passes E es cuts) d) {t : Nat}
    (hreg : ∀ b ∈ blocksOf es, ∀ x j, Kept b x j → σ t x j ≠ σ' t x j →
      ∃ loc, Leaves b.stmt x j loc ∧ ReachedBy E es cuts σ σ' t (.assignment loc))
    {z i : Nat} {who : NodeData} (h : Sees es z i who) (hne : σ t z i ≠ σ' t z i) :
    ReachedBy E es cuts σ σ' t who := by
  obtain ⟨y, q, h1, h2, h3⟩ := trace_bit hr hf (hs t) (hs' t) z i hne
  rcases h3 with h3 | ⟨h3, h4⟩
  · exact source_reached hr ht hs hs' hreg h3 h2 h1 h
  · obtain ⟨hb, hk⟩ := down_bare hr h3 h4
    obtain ⟨b1, g1, g2, x, j, g3, g4⟩ := h3
    rw [arrives_value hr (hs t) g4, arrives_value hr (hs' t) g4] at h2
    obtain ⟨loc, l1, s, q', z', i', who', a1, a2, a3, a4, a5⟩ :=
      differs_touched hr hf (hs t) (hs' t) L hL hac g1 g2 g3 h2
    obtain ⟨b2, k1, r, Q, k3, k4, rfl, k6, k7, k8⟩ := h
    exact (reached_chain (fun u v => .pass) (source_reached hr ht hs hs' hreg a1 a2 a3 (fetches_sees a4)) a5).tail
      (.pass (.across g1 g2 l1 g4 h4 k1 k3 k4 k7 rfl k6 k8 hk hb))

theorem inert_cross {l : TextLoc} (hi : Inert es l) {b : Deferred} {y : Nat} : ¬ Crosses E es cuts b y (.assignment l) := by
  intro h
  cases h with
  | read _ _ _ _ k1 k3 => exact (hi _ k1).1 _ _ k3
  | port _ _ _ _ _ _ _ k1 k3 => exact (hi _ k1).1 _ _ k3

/-- An assignment that reads nothing is only reached through the conditions in front of it. -/
theorem inert_reached {l loc : TextLoc} (hi : Inert es l) {b : Deferred} (hb : b ∈ blocksOf es)
    (hg : ∀ b' ∈ blocksOf es, ∀ u, Guards b'.stmt u (.assignment l) → Reach (Guards b.stmt) u (.assignment loc))
    {t : Nat} (h : ReachedBy E es cuts σ σ' t (.assignment l)) : ReachedBy E es cuts σ σ' t (.assignment loc) := by
  obtain ⟨t', ht, s, q, z, i, who, h1, h2, h3, h4, h5, h6⟩ := h
  cases h6 with
  | refl =>
    obtain ⟨b2, k1, r, Q, k3, _⟩ := h5
    exact absurd k3 ((hi b2 k1).1 r Q)
  | @tail u _ h6 h7 =>
    have hu : ReachedBy E es cuts σ σ' t u := ⟨t', ht, s, q, z, i, who, h1, h2, h3, h4, h5, h6⟩
    cases h7 with
    | pass h7 =>
      cases h7 with
      | across _ _ _ _ _ k1 k3 => exact absurd k3 ((hi _ k1).1 _ _)
      | inner k1 k3 => exact absurd k3 ((hi _ k1).1 _ _)
      | iface _ _ _ k => exact absurd k (inert_cross hi)
      | control k1 k3 =>
        cases k3 with
        | guard k3 =>
          exact reached_chain (R := Guards b.stmt) (fun u v h => .pass (.control hb (.guard h))) hu (hg _ k1 _ k3)
        | self k3 => exact absurd k3 (hi _ k1).2
    | cross _ _ _ k => exact absurd k (inert_cross hi)
    | keep _ _ _ _ k1 k3 => exact absurd k3 ((hi _ k1).1 _ _)
    | enter _ _ _ _ _ _ k1 k3 => exact absurd k3 ((hi _ k1).1 _ _)
    | out _ _ _ _ _ k1 k3 => exact absurd k3 ((hi _ k1).1 _ _)

/-- A register bit differs only if an assignment that can leave it its value is reached. -/
theorem register_reached (hr : Regular E es cuts) (ht : Timed E es cuts) (hf : Faithful M E es)
    (hf' : ∀ b ∈ blocksOf es, Clocked b → Reflects M b.stmt) (hs : Unrolls M E es fire σ) (hs' : Unrolls M E es fire σ')
    (hinit : ∀ b ∈ blocksOf es, ∀ x j, Kept b x j → σ 0 x j = σ' 0 x j) (L : List NodeData)
    (hL : ∀ u v, Passes E es cuts u v → u ∈ L) (hac : ∀ d, ¬ OnCycle (Passes E es cuts) d) (t : Nat) :
    ∀ b ∈ blocksOf es, ∀ x j, Kept b x j → σ t x j ≠ σ' t x j →
      ∃ loc, Leaves b.stmt x j loc ∧ ReachedBy E es cuts σ σ' t (.assignment loc) := by
  induction t with
  | zero => intro b hb x j hk hne; exact absurd (hinit b hb x j hk) hne
  | succ t ih =>
    intro b hb x j hk hne
    by_cases hold : σ t x j = σ' t x j
    · rw [hs.step t b hb x j hk, hs'.step t b hb x j hk] at hne
      split at hne
      · have hc := ht.sync b hb hk.1
        have hw : ∃ w ∈ allWrites b.stmt, Hits false x j w ∧ ReachedBy E es cuts σ σ' t (.assignment w.loc) := by
          refine Classical.byContradiction fun hno => hne ?_
          refine later_agree (Bad := ReachedBy E es cuts σ σ' t) (P := Start) hc (hf' b hb hk.1) ⟨[], rfl⟩ ?_ ?_ x j
            (fun w h1 h2 h3 => hno ⟨w, h1, h2, h3⟩) hold
          · intro who r Q hu hq hrf p hp hd
            obtain ⟨i, rfl⟩ := Int.eq_ofNat_of_zero_le (ht.count b hb hk.1 who r Q hu p hp)
            refine sees_reached hr ht hf hs.stable hs'.stable L hL hac ih ⟨b, hb, r, Q, hu, hq, rfl, hp, hrf, ?_⟩ hd
            intro tr htr w hw hh
            obtain ⟨u, v, g1, rfl, g3⟩ := use_paths hu tr htr
            cases g1
            have := sync_writes hc w (g3 w (by simpa using hw))
            rw [hh.1] at this
            cases this
          · exact fun u v hg h => h.tail (.pass (.control hb (.guard hg)))
        obtain ⟨w, w1, w2, w3⟩ := hw
        obtain ⟨loc, hl⟩ := lastAt_of_hit ⟨w, w1, w2⟩
        rw [← sync_nba hc] at hl
        have hlv : Leaves b.stmt x j loc := .inl hl
        refine ⟨loc, hlv, ReachedBy.mono ?_ (Nat.le_succ t)⟩
        rcases ht.last b hb hk.1 x j loc hlv w w1 w2 with e | ⟨e1, e2⟩
        · rw [← e]; exact w3
        · exact inert_reached e1 hb e2 w3
      · exact absurd hold hne
    · obtain ⟨loc, h1, h2⟩ := ih b hb x j hk hold
      exact ⟨loc, h1, h2.mono (Nat.le_succ t)⟩

/-- The same for what other blocks assign. -/
theorem assigned_reached (hr : Regular E es cuts) (ht : Timed E es cuts) (hf : Faithful M E es)
    (hf' : ∀ b ∈ blocksOf es, Clocked b → Reflects M b.stmt) (hs : Unrolls M E es fire σ) (hs' : Unrolls M E es fire σ')
    (hinit : ∀ b ∈ blocksOf es, ∀ x j, Kept b x j → σ 0 x j = σ' 0 x j) (L : List NodeData)
    (hL : ∀ u v, Passes E es cuts u v → u ∈ L) (hac : ∀ d, ¬ OnCycle (Passes E es cuts) d) {t : Nat}
    {b : Deferred} (hb : b ∈ blocksOf es) (hk : ¬ Clocked b) {x j : Nat}
    (hw : ∃ w ∈ allWrites b.stmt, Hits true x j w) (hne : σ t x j ≠ σ' t x j) :
    ∃ loc, Leaves b.stmt x j loc ∧ ReachedBy E es cuts σ σ' t (.assignment loc) := by
  obtain ⟨loc, l1, s, q', z', i', who', a1, a2, a3, a4, a5⟩ :=
    differs_touched hr hf (hs.stable t) (hs'.stable t) L hL hac hb hk hw hne
  exact ⟨loc, l1, reached_chain (fun u v => .pass) (source_reached hr ht hs.stable hs'.stable
    (register_reached hr ht hf hf' hs hs' hinit L hL hac t) a1 a2 a3 (fetches_sees a4)) a5⟩

end Verif.Proofs

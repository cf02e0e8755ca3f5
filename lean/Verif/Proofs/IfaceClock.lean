import Verif.Spec.IfaceClock
import Verif.Proofs.Clock
import Verif.Proofs.IfaceInfluence

/-! Two runs of a design with interfaces over time: where they can differ. -/
namespace Verif.Proofs
open Verif.Model Verif.Spec Verif.Props

variable {V : Type} {M : Meaning V} {E : TravEnv} {es : List Event} {cuts : CutReg} {via : Nat → Nat → Nat × Nat}
variable {fire : Nat → Deferred → Bool} {σ σ' : Nat → Vals V}

/-- By time `t` an input whose values differ has been read by a node from which `d` can be reached. -/
def ReachedVia (E : TravEnv) (es : List Event) (cuts : CutReg) (via : Nat → Nat → Nat × Nat) (σ σ' : Nat → Vals V)
    (t : Nat) (d : NodeData) : Prop :=
  ∃ t' ≤ t, ∃ s q z i who, OuterSource E es cuts via s q ∧ ¬ HeldVia E es cuts via s q ∧ σ t' s q ≠ σ' t' s q ∧
    Brings E es s q z i ∧ Sees es z i who ∧ Reach (Hands E es cuts) who d

theorem ReachedVia.tail {t : Nat} {u v : NodeData} (h : ReachedVia E es cuts via σ σ' t u) (hv : Hands E es cuts u v) :
    ReachedVia E es cuts via σ σ' t v := by
  obtain ⟨t', ht, s, q, z, i, who, h1, h2, h3, h4, h5, h6⟩ := h
  exact ⟨t', ht, s, q, z, i, who, h1, h2, h3, h4, h5, h6.tail hv⟩

theorem ReachedVia.mono {t t' : Nat} {u : NodeData} (h : ReachedVia E es cuts via σ σ' t u) (ht : t ≤ t') :
    ReachedVia E es cuts via σ σ' t' u := by
  obtain ⟨t0, h0, h⟩ := h
  exact ⟨t0, by omega, h⟩

theorem reachedVia_chain {R : NodeData → NodeData → Prop} (hR : ∀ u v, R u v → Hands E es cuts u v) {t : Nat}
    {u v : NodeData} (h : ReachedVia E es cuts via σ σ' t u) (hr : Reach R u v) : ReachedVia E es cuts via σ σ' t v := by
  induction hr with
  | refl => exact h
  | tail _ h' ih => exact ih.tail (hR _ _ h')

/-- No path to a read of a register off the interfaces has a blocking write of it. -/
theorem keptVia_unwritten (hr : RegularVia E es cuts via) (ht : TimedVia E es cuts via) {b b' : Deferred}
    (hb : b ∈ blocksOf es) {x j : Nat} (hk : Kept b x j) (hx : ¬ OnIface E es x) (hb' : b' ∈ blocksOf es)
    {who : NodeData} {r : Ref} {Q : List Wr → Prop} (hu : Use Start b'.stmt who r Q) {p : Int} (hp : InRng r.bounds p) :
    ∀ tr, Q tr → ∀ w ∈ tr, ¬ Hits true x p w := by
  intro tr htr w hw hh
  obtain ⟨u, v, g1, rfl, g3⟩ := use_paths hu tr htr
  cases g1
  have hw' : w ∈ allWrites b'.stmt := g3 w (by simpa using hw)
  by_cases hc : Clocked b'
  · have := sync_writes (ht.sync b' hb' hc) w hw'
    rw [hh.1] at this
    cases this
  · obtain ⟨i, rfl⟩ := Int.eq_ofNat_of_zero_le (hr.settled b' hb' hc who r Q hu p hp).1
    obtain ⟨⟨_, hba⟩, _⟩ :=
      (hr.assigned x i ⟨b', hb', hc, x, i, ⟨w, hw', hh⟩, .inl ⟨hc, rfl, rfl⟩⟩).resolve_left hx
    obtain ⟨hk1, v', hv, hhv⟩ := hk
    exact hba b hb hk1 v' hv hhv.2.1

/-- Uses of signals on interfaces, in all blocks. -/
theorem reads_via (hr : RegularVia E es cuts via) (ht : TimedVia E es cuts via) {b : Deferred} (hb : b ∈ blocksOf es)
    {who : NodeData} {r : Ref} {Q : List Wr → Prop} (hu : Use Start b.stmt who r Q) {i : Nat} (hi : InRng r.bounds i)
    (hn : ∀ tr, Q tr → ∀ w ∈ tr, ¬ Hits true r.sym i w) (ho : OnIface E es r.sym) :
    ∃ d, DrivenRange es (via r.sym i).1 (via r.sym i).2 d ∧
      TakesFrom E.D r Q ((via r.sym i).1, ⟨d.1, (d.1 : Int) + d.2⟩) := by
  by_cases hc : Clocked b
  · exact ht.reads b hb hc who r Q hu ho i hi hn
  · exact hr.reads b hb hc who r Q hu ho i hi hn

/-- Where a difference in a source that is read comes from. -/
theorem outer_reached (hr : RegularVia E es cuts via) (ht : TimedVia E es cuts via) (hs : ∀ t, Solves M E es (σ t))
    (hs' : ∀ t, Solves M E es (σ' t)) (hv : ∀ t, Shared E es via (σ t)) (hv' : ∀ t, Shared E es via (σ' t)) {t : Nat}
    (hreg : ∀ b ∈ blocksOf es, ∀ x j, Kept b x j → σ t x j ≠ σ' t x j →
      ∃ loc, Leaves b.stmt x j loc ∧ ReachedVia E es cuts via σ σ' t (.assignment loc))
    {s q z i : Nat} {who : NodeData} (h1 : OuterSource E es cuts via s q) (h2 : σ t s q ≠ σ' t s q)
    (h3 : Brings E es s q z i) (h4 : Sees es z i who) : ReachedVia E es cuts via σ σ' t who := by
  have share : OnIface E es s → ∀ b ∈ blocksOf es, ∀ y' q', OnIface E es y' → via y' q' = via s q → Kept b y' q' →
      ReachedVia E es cuts via σ σ' t who := by
    intro hon b hb y' q' a1 a2 hk
    have hd : σ t y' q' ≠ σ' t y' q' := by
      rw [hv t _ _ a1, hv' t _ _ a1, a2, ← hv t _ _ hon, ← hv' t _ _ hon]
      exact h2
    obtain ⟨loc, l1, l2⟩ := hreg b hb y' q' hk hd
    obtain ⟨b2, g1, r, Q, g2, g3, rfl, g5, g6, g7⟩ := h4
    refine l2.tail (.cross hb hk l1 ?_)
    cases h3 with
    | refl =>
      obtain ⟨d, d1, d2⟩ := reads_via hr ht g1 g2 g5 g7 hon
      have d3 := ht.writes b hb y' q' hk a1 d (a2 ▸ d1)
      rw [a2] at d3
      obtain ⟨_, _, ds, d4, d5⟩ := d1
      exact .read d4 d5 (hr.clocks _ _ d4) d3 g1 g2 g3 g6 d2
    | step h h3 =>
      obtain ⟨d0, d0'⟩ := hr.inlets _ _ _ _ h
      obtain ⟨c1, c2, c3⟩ := inlets_down hr.inlets h3 d0 d0'
      obtain ⟨p, k, e1, e2, e3⟩ := h
      obtain ⟨ds, d, f1, f2, f3, f4, f5⟩ := hr.wired p k _ _ s q e1 e2 e3 hon
      have f6 := ht.writes b hb y' q' hk a1 d (a2 ▸ ⟨f3, f4, ds, f1, f2⟩)
      rw [a2] at f6
      exact .port f1 f2 (hr.clocks _ _ f1) f6 f5 e3 c1 g1 g2 g3 g6 rfl g5 g7 c3 c2
  by_cases hh : HeldVia E es cuts via s q
  · rcases hh with ⟨b, hb, x, j, hk, ha⟩ | ⟨hon, b, hb, y', q', a1, a2, hk⟩
    · rcases ha with ⟨rfl, rfl⟩ | ha
      · by_cases hon : OnIface E es s
        · exact share hon b hb s q hon rfl hk
        · obtain ⟨loc, l1, l2⟩ := hreg b hb s q hk h2
          obtain ⟨b2, g1, r, Q, g2, g3, rfl, g5, g6, g7⟩ := h4
          cases h3 with
          | refl =>
            exact l2.tail (.keep hb hk hon l1 g1 g2 g3 g6 rfl g5 fun p hp => keptVia_unwritten hr ht hb hk hon g1 g2 hp)
          | step h h3 =>
            obtain ⟨d0, d0'⟩ := hr.inlets _ _ _ _ h
            obtain ⟨d1, d2, d3⟩ := inlets_down hr.inlets h3 d0 d0'
            exact l2.tail (.enter hb hk hon l1 h d1 g1 g2 g3 g6 rfl g5 g7 d3 d2)
      · have hd : σ t x j ≠ σ' t x j := by
          rwa [(arrives_via hr (hs t) ha).1, (arrives_via hr (hs' t) ha).1] at h2
        obtain ⟨loc, l1, l2⟩ := hreg b hb x j hk hd
        obtain ⟨o1, o2⟩ := ht.outs b hb x j s q hk ha
        obtain ⟨d1, d2, d3⟩ := inlets_down hr.inlets h3 o1 o2
        obtain ⟨b2, g1, r, Q, g2, g3, rfl, g5, g6, g7⟩ := h4
        exact l2.tail (.out hb hk l1 ha d1 g1 g2 g3 g6 rfl g5 g7 d3 d2)
    · exact share hon b hb y' q' a1 a2 hk
  · exact ⟨t, Nat.le_refl _, s, q, z, i, who, h1, hh, h2, h3, h4, .refl⟩

/-- An assignment of a block that is not edge-triggered whose bit differs is reached. -/
theorem comb_reached (hr : RegularVia E es cuts via) (ht : TimedVia E es cuts via) (hf : Faithful M E es)
    (hs : ∀ t, Solves M E es (σ t)) (hs' : ∀ t, Solves M E es (σ' t)) (hv : ∀ t, Shared E es via (σ t))
    (hv' : ∀ t, Shared E es via (σ' t)) (L : List NodeData)
    (hL : ∀ u v, Passes E es cuts u v → u ∈ L) (hac : ∀ d, ¬ OnCycle (Passes E es cuts) d) {t : Nat}
    (hreg : ∀ b ∈ blocksOf es, ∀ x j, Kept b x j → σ t x j ≠ σ' t x j →
      ∃ loc, Leaves b.stmt x j loc ∧ ReachedVia E es cuts via σ σ' t (.assignment loc))
    {b : Deferred} (hb : b ∈ blocksOf es) (hk : ¬ Clocked b) {x j : Nat}
    (hw : ∃ w ∈ allWrites b.stmt, Hits true x j w) (hne : σ t x j ≠ σ' t x j) :
    ∃ loc, Leaves b.stmt x j loc ∧ ReachedVia E es cuts via σ σ' t (.assignment loc) := by
  obtain ⟨loc, l1, s, q', z', i', who', a1, a2, a3, a4, a5⟩ :=
    differs_via hr hf (hs t) (hs' t) (hv t) (hv' t) L hL hac hb hk hw hne
  exact ⟨loc, l1, reachedVia_chain (fun u v => .pass)
    (outer_reached hr ht hs hs' hv hv' hreg a1 a2 a3 (fetches_sees a4)) a5⟩

/-- A node that reads a bit whose values differ is reached. -/
theorem seesVia_reached (hr : RegularVia E es cuts via) (ht : TimedVia E es cuts via) (hf : Faithful M E es)
    (hs : ∀ t, Solves M E es (σ t)) (hs' : ∀ t, Solves M E es (σ' t)) (hv : ∀ t, Shared E es via (σ t))
    (hv' : ∀ t, Shared E es via (σ' t)) (L : List NodeData)
    (hL : ∀ u v, Passes E es cuts u v → u ∈ L) (hac : ∀ d, ¬ OnCycle (Passes E es cuts) d) {t : Nat}
    (hreg : ∀ b ∈ blocksOf es, ∀ x j, Kept b x j → σ t x j ≠ σ' t x j →
      ∃ loc, Leaves b.stmt x j loc ∧ ReachedVia E es cuts via σ σ' t (.assignment loc))
    {z i : Nat} {who : NodeData} (h : Sees es z i who) (hne : σ t z i ≠ σ' t z i) :
    ReachedVia E es cuts via σ σ' t who := by
  have h' := h
  obtain ⟨b2, k1, r, Q, k3, k4, rfl, k6, k7, k8⟩ := h'
  rcases see_via hr hf (hs t) (hs' t) (hv t) (hv' t) k1 k3 k4 k6 k7 k8 (reads_via hr ht k1 k3 k6 k8) hne with
    ⟨s, q, a1, a2, a3⟩ | ⟨b1, g1, g2, x, j, g3, h2, hp⟩
  · exact outer_reached hr ht hs hs' hv hv' hreg a1 a2 a3 h
  · obtain ⟨loc, l1, l2⟩ := comb_reached hr ht hf hs hs' hv hv' L hL hac hreg g1 g2 g3 h2
    exact l2.tail (.pass (hp loc l1))

/-- An assignment that reads nothing is only reached through the conditions in front of it. -/
theorem inertVia_reached {l loc : TextLoc} (hi : Inert es l) {b : Deferred} (hb : b ∈ blocksOf es)
    (hg : ∀ b' ∈ blocksOf es, ∀ u, Guards b'.stmt u (.assignment l) → Reach (Guards b.stmt) u (.assignment loc))
    {t : Nat} (h : ReachedVia E es cuts via σ σ' t (.assignment l)) :
    ReachedVia E es cuts via σ σ' t (.assignment loc) := by
  obtain ⟨t', ht, s, q, z, i, who, h1, h2, h3, h4, h5, h6⟩ := h
  cases h6 with
  | refl =>
    obtain ⟨b2, k1, r, Q, k3, _⟩ := h5
    exact absurd k3 ((hi b2 k1).1 r Q)
  | @tail u _ h6 h7 =>
    have hu : ReachedVia E es cuts via σ σ' t u := ⟨t', ht, s, q, z, i, who, h1, h2, h3, h4, h5, h6⟩
    cases h7 with
    | pass h7 =>
      cases h7 with
      | across _ _ _ _ _ k1 k3 => exact absurd k3 ((hi _ k1).1 _ _)
      | inner k1 k3 => exact absurd k3 ((hi _ k1).1 _ _)
      | iface _ _ _ k => exact absurd k (inert_cross hi)
      | control k1 k3 =>
        cases k3 with
        | guard k3 =>
          exact reachedVia_chain (R := Guards b.stmt) (fun u v h => .pass (.control hb (.guard h))) hu (hg _ k1 _ k3)
        | self k3 => exact absurd k3 (hi _ k1).2
    | cross _ _ _ k => exact absurd k (inert_cross hi)
    | keep _ _ _ _ k1 k3 => exact absurd k3 ((hi _ k1).1 _ _)
    | enter _ _ _ _ _ _ k1 k3 => exact absurd k3 ((hi _ k1).1 _ _)
    | out _ _ _ _ _ k1 k3 => exact absurd k3 ((hi _ k1).1 _ _)

/-- A register bit differs only if an assignment that can leave it its value is reached. -/
theorem registerVia_reached (hr : RegularVia E es cuts via) (ht : TimedVia E es cuts via) (hf : Faithful M E es)
    (hf' : ∀ b ∈ blocksOf es, Clocked b → Reflects M b.stmt) (hs : Unrolls M E es fire σ) (hs' : Unrolls M E es fire σ')
    (hv : ∀ t, Shared E es via (σ t)) (hv' : ∀ t, Shared E es via (σ' t))
    (hinit : ∀ b ∈ blocksOf es, ∀ x j, Kept b x j → σ 0 x j = σ' 0 x j) (L : List NodeData)
    (hL : ∀ u v, Passes E es cuts u v → u ∈ L) (hac : ∀ d, ¬ OnCycle (Passes E es cuts) d) (t : Nat) :
    ∀ b ∈ blocksOf es, ∀ x j, Kept b x j → σ t x j ≠ σ' t x j →
      ∃ loc, Leaves b.stmt x j loc ∧ ReachedVia E es cuts via σ σ' t (.assignment loc) := by
  induction t with
  | zero => intro b hb x j hk hne; exact absurd (hinit b hb x j hk) hne
  | succ t ih =>
    intro b hb x j hk hne
    by_cases hold : σ t x j = σ' t x j
    · rw [hs.step t b hb x j hk, hs'.step t b hb x j hk] at hne
      split at hne
      · have hc := ht.sync b hb hk.1
        have hw : ∃ w ∈ allWrites b.stmt, Hits false x j w ∧ ReachedVia E es cuts via σ σ' t (.assignment w.loc) := by
          refine Classical.byContradiction fun hno => hne ?_
          refine later_agree (Bad := ReachedVia E es cuts via σ σ' t) (P := Start) hc (hf' b hb hk.1) ⟨[], rfl⟩ ?_ ?_ x j
            (fun w h1 h2 h3 => hno ⟨w, h1, h2, h3⟩) hold
          · intro who r Q hu hq hrf p hp hd
            obtain ⟨i, rfl⟩ := Int.eq_ofNat_of_zero_le (ht.count b hb hk.1 who r Q hu p hp)
            refine seesVia_reached hr ht hf hs.stable hs'.stable hv hv' L hL hac ih
              ⟨b, hb, r, Q, hu, hq, rfl, hp, hrf, ?_⟩ hd
            intro tr htr w hw hh
            obtain ⟨u, v, g1, rfl, g3⟩ := use_paths hu tr htr
            cases g1
            have := sync_writes hc w (g3 w (by simpa using hw))
            rw [hh.1] at this
            cases this
          · exact fun u v hg h => h.tail (.pass (.control hb (.guard hg)))
        obtain ⟨w, w1, w2, w3⟩ := hw
        obtain ⟨loc, hl⟩ := lastAt_of_hit ⟨w, w1, w2⟩
        rw [← sync_nba hc] at hl
        have hlv : Leaves b.stmt x j loc := .inl hl
        refine ⟨loc, hlv, ReachedVia.mono ?_ (Nat.le_succ t)⟩
        rcases ht.last b hb hk.1 x j loc hlv w w1 w2 with e | ⟨e1, e2⟩
        · rw [← e]; exact w3
        · exact inertVia_reached e1 hb e2 w3
      · exact absurd hold hne
    · obtain ⟨loc, h1, h2⟩ := ih b hb x j hk hold
      exact ⟨loc, h1, h2.mono (Nat.le_succ t)⟩

end Verif.Proofs

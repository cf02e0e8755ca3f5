import Verif.Spec.TickVia
import Verif.Proofs.Tick
import Verif.Proofs.IfaceClock

/-! Two runs of a design with interfaces, whose blocks fire at different times: where they can differ. -/
namespace Verif.Proofs
open Verif.Model Verif.Spec Verif.Props

variable {V : Type} {M : Meaning V} {E : TravEnv} {es : List Event} {cuts : CutReg} {via : Nat → Nat → Nat × Nat}
variable {T : (Nat → Vals V) → Nat → Deferred → Bool} {σ σ' : Nat → Vals V}

/-- By time `t` an input whose values differ has been read, or waited for, at a point from which `v` can be
reached. -/
def HeededVia (E : TravEnv) (es : List Event) (cuts : CutReg) (via : Nat → Nat → Nat × Nat) (σ σ' : Nat → Vals V)
    (t : Nat) (v : Point) : Prop :=
  ∃ t' ≤ t, ∃ s q z i u, OuterSource E es cuts via s q ∧ ¬ HeldVia E es cuts via s q ∧ σ t' s q ≠ σ' t' s q ∧
    Brings E es s q z i ∧ Heeds E.D es z i u ∧ Off E es u ∧ Reach (MovesVia E es cuts) u v

theorem HeededVia.tail {t : Nat} {u v : Point} (h : HeededVia E es cuts via σ σ' t u) (hv : MovesVia E es cuts u v) :
    HeededVia E es cuts via σ σ' t v := by
  obtain ⟨t', ht, s, q, z, i, who, h1, h2, h3, h4, h5, h6, h7⟩ := h
  exact ⟨t', ht, s, q, z, i, who, h1, h2, h3, h4, h5, h6, h7.tail hv⟩

theorem HeededVia.mono {t t' : Nat} {u : Point} (h : HeededVia E es cuts via σ σ' t u) (ht : t ≤ t') :
    HeededVia E es cuts via σ σ' t' u := by
  obtain ⟨t0, h0, h⟩ := h
  exact ⟨t0, by omega, h⟩

theorem heededVia_pass {t : Nat} {u v : NodeData} (h : HeededVia E es cuts via σ σ' t (.text u))
    (hv : Passes E es cuts u v) : HeededVia E es cuts via σ σ' t (.text v) :=
  h.tail (.move (.pass hv) trivial trivial)

theorem heededVia_chain {R : NodeData → NodeData → Prop} (hR : ∀ u v, R u v → Passes E es cuts u v) {t : Nat}
    {u v : NodeData} (h : HeededVia E es cuts via σ σ' t (.text u)) (hr : Reach R u v) :
    HeededVia E es cuts via σ σ' t (.text v) := by
  induction hr with
  | refl => exact h
  | tail _ h' ih => exact heededVia_pass ih (hR _ _ h')

/-- What is known of registers whose values differ at time `t`. -/
def RegsTouched (E : TravEnv) (es : List Event) (cuts : CutReg) (via : Nat → Nat → Nat × Nat) (σ σ' : Nat → Vals V)
    (t : Nat) : Prop :=
  ∀ b ∈ blocksOf es, ∀ x j : Nat, Kept b x j → σ t x j ≠ σ' t x j →
    (¬ OnIface E es x → HeededVia E es cuts via σ σ' t (.reg x)) ∧
    (OnIface E es x → ∃ loc, Leaves b.stmt x j loc ∧ HeededVia E es cuts via σ σ' t (.text (.assignment loc)))

/-- Where a difference in a source that is heeded comes from. -/
theorem outer_touched (hr : RegularVia E es cuts via) (ht : TimedVia E es cuts via) (ho : ClocksOff E es cuts)
    (hs : ∀ t, Solves M E es (σ t)) (hs' : ∀ t, Solves M E es (σ' t)) (hv : ∀ t, Shared E es via (σ t))
    (hv' : ∀ t, Shared E es via (σ' t)) {t : Nat} (hreg : RegsTouched E es cuts via σ σ' t)
    {s q z i : Nat} {v : Point} (h1 : OuterSource E es cuts via s q) (h2 : σ t s q ≠ σ' t s q)
    (h3 : Brings E es s q z i) (h4 : Heeds E.D es z i v) (hov : Off E es v) : HeededVia E es cuts via σ σ' t v := by
  have share : OnIface E es s → ∀ b ∈ blocksOf es, ∀ y' q', OnIface E es y' → via y' q' = via s q → Kept b y' q' →
      HeededVia E es cuts via σ σ' t v := by
    intro hon b hb y' q' a1 a2 hk
    have hd : σ t y' q' ≠ σ' t y' q' := by
      rw [hv t _ _ a1, hv' t _ _ a1, a2, ← hv t _ _ hon, ← hv' t _ _ hon]
      exact h2
    obtain ⟨loc, l1, l2⟩ := (hreg b hb y' q' hk hd).2 a1
    cases h4 with
    | edge e1 e2 e3 => exact absurd hon (ho.waits _ e1 _ _ e3 _ _ h3)
    | read h4 =>
      obtain ⟨b2, g1, r, Q, g2, g3, rfl, g5, g6, g7⟩ := h4
      refine l2.tail (.cross hb hk l1 ?_)
      cases h3 with
      | refl =>
        obtain ⟨d, d1, d2⟩ := reads_via hr ht g1 g2 g5 g7 hon
        have d3 := ht.writes b hb y' q' hk a1 d (a2 ▸ d1)
        rw [a2] at d3
        obtain ⟨_, _, ds, d4, d5⟩ := d1
        exact .read d4 d5 (hr.clocks _ _ d4) d3 g1 g2 g3 g6 d2
      | step h h3 =>
        obtain ⟨d0, d0'⟩ := hr.inlets _ _ _ _ h
        obtain ⟨c1, c2, c3⟩ := inlets_down hr.inlets h3 d0 d0'
        obtain ⟨p, k, e1, e2, e3⟩ := h
        obtain ⟨ds, d, f1, f2, f3, f4, f5⟩ := hr.wired p k _ _ s q e1 e2 e3 hon
        have f6 := ht.writes b hb y' q' hk a1 d (a2 ▸ ⟨f3, f4, ds, f1, f2⟩)
        rw [a2] at f6
        exact .port f1 f2 (hr.clocks _ _ f1) f6 f5 e3 c1 g1 g2 g3 g6 rfl g5 g7 c3 c2
  by_cases hh : HeldVia E es cuts via s q
  · rcases hh with ⟨b, hb, x, j, hk, ha⟩ | ⟨hon, b, hb, y', q', a1, a2, hk⟩
    · rcases ha with ⟨rfl, rfl⟩ | ha
      · by_cases hon : OnIface E es s
        · exact share hon b hb s q hon rfl hk
        · have l2 := (hreg b hb s q hk h2).1 hon
          cases h3 with
          | refl => exact l2.tail (.move (.keep hb hk h4) hon hov)
          | step h h3 =>
            obtain ⟨d0, d0'⟩ := hr.inlets _ _ _ _ h
            obtain ⟨d1, d2, d3⟩ := inlets_down hr.inlets h3 d0 d0'
            exact l2.tail (.move (.enter hb hk h d1 h4 d3 d2) hon hov)
      · have hd : σ t x j ≠ σ' t x j := by
          rwa [(arrives_via hr (hs t) ha).1, (arrives_via hr (hs' t) ha).1] at h2
        have hon : ¬ OnIface E es x := fun h => ho.inner b hb x j hk h s q ha
        obtain ⟨o1, o2⟩ := ht.outs b hb x j s q hk ha
        obtain ⟨d1, d2, d3⟩ := inlets_down hr.inlets h3 o1 o2
        exact ((hreg b hb x j hk hd).1 hon).tail (.move (.out hb hk ha d1 h4 d3 d2) hon hov)
    · exact share hon b hb y' q' a1 a2 hk
  · exact ⟨t, Nat.le_refl _, s, q, z, i, v, h1, hh, h2, h3, h4, hov, .refl⟩

/-- An assignment of a block that is not edge-triggered whose bit differs is touched. -/
theorem comb_touched (hr : RegularVia E es cuts via) (ht : TimedVia E es cuts via) (ho : ClocksOff E es cuts)
    (hf : Faithful M E es) (hs : ∀ t, Solves M E es (σ t)) (hs' : ∀ t, Solves M E es (σ' t))
    (hv : ∀ t, Shared E es via (σ t)) (hv' : ∀ t, Shared E es via (σ' t)) (L : List NodeData)
    (hL : ∀ u v, Passes E es cuts u v → u ∈ L) (hac : ∀ d, ¬ OnCycle (Passes E es cuts) d) {t : Nat}
    (hreg : RegsTouched E es cuts via σ σ' t) {b : Deferred} (hb : b ∈ blocksOf es) (hk : ¬ Clocked b) {x j : Nat}
    (hw : ∃ w ∈ allWrites b.stmt, Hits true x j w) (hne : σ t x j ≠ σ' t x j) :
    ∃ loc, Leaves b.stmt x j loc ∧ HeededVia E es cuts via σ σ' t (.text (.assignment loc)) := by
  obtain ⟨loc, l1, s, q', z', i', who', a1, a2, a3, a4, a5⟩ :=
    differs_via hr hf (hs t) (hs' t) (hv t) (hv' t) L hL hac hb hk hw hne
  exact ⟨loc, l1, heededVia_chain (fun u v h => h)
    (outer_touched hr ht ho hs hs' hv hv' hreg a1 a2 a3 (.read (fetches_sees a4)) trivial) a5⟩

/-- A point that heeds a bit whose values differ is touched. -/
theorem heedsVia_touched (hr : RegularVia E es cuts via) (ht : TimedVia E es cuts via) (ho : ClocksOff E es cuts)
    (hf : Faithful M E es) (hs : ∀ t, Solves M E es (σ t)) (hs' : ∀ t, Solves M E es (σ' t))
    (hv : ∀ t, Shared E es via (σ t)) (hv' : ∀ t, Shared E es via (σ' t)) (L : List NodeData)
    (hL : ∀ u v, Passes E es cuts u v → u ∈ L) (hac : ∀ d, ¬ OnCycle (Passes E es cuts) d) {t : Nat}
    (hreg : RegsTouched E es cuts via σ σ' t) {z i : Nat} {v : Point} (h : Heeds E.D es z i v) (hov : Off E es v)
    (hne : σ t z i ≠ σ' t z i) : HeededVia E es cuts via σ σ' t v := by
  have h' := h
  cases h' with
  | read h' =>
    obtain ⟨b2, k1, r, Q, k3, k4, rfl, k6, k7, k8⟩ := h'
    rcases see_via hr hf (hs t) (hs' t) (hv t) (hv' t) k1 k3 k4 k6 k7 k8 (reads_via hr ht k1 k3 k6 k8) hne with
      ⟨s, q, a1, a2, a3⟩ | ⟨b1, g1, g2, x, j, g3, h2, hp⟩
    · exact outer_touched hr ht ho hs hs' hv hv' hreg a1 a2 a3 h trivial
    · obtain ⟨loc, l1, l2⟩ := comb_touched hr ht ho hf hs hs' hv hv' L hL hac hreg g1 g2 g3 h2
      exact heededVia_pass l2 (hp loc l1)
  | edge e1 e2 e3 =>
    have hz : ¬ OnIface E es z := ho.waits _ e1 _ _ e3 _ _ (.refl _ _)
    obtain ⟨y, q, a1, a2, a3⟩ := trace_via hr hf (hs t) (hs' t) z i hz hne
    rcases a3 with ⟨a3, a4 | ⟨a4, a5, a6, a7⟩⟩ | ⟨a3, _⟩
    · exact outer_touched hr ht ho hs hs' hv hv' hreg ⟨a4, fun h => absurd h a3⟩ a2 a1 h hov
    · obtain ⟨b1, g1, g2, x, j, g3, g4⟩ := a4
      rw [(arrives_via hr (hs t) g4).1, (arrives_via hr (hs' t) g4).1] at a2
      obtain ⟨loc, l1, l2⟩ := comb_touched hr ht ho hf hs hs' hv hv' L hL hac hreg g1 g2 g3 a2
      exact l2.tail (.move (.clock g1 g2 l1 g4 a5 (.edge e1 e2 e3) a7 a6) trivial hov)
    · exact absurd a3 (ho.waits _ e1 _ _ e3 _ _ a1)

/-- An assignment that reads nothing is only touched through the conditions in front of it. -/
theorem inertVia_touched {l loc : TextLoc} (hi : Inert es l) {b : Deferred} (hb : b ∈ blocksOf es)
    (hg : ∀ b' ∈ blocksOf es, ∀ u, Guards b'.stmt u (.assignment l) → Reach (Guards b.stmt) u (.assignment loc))
    {t : Nat} (h : HeededVia E es cuts via σ σ' t (.text (.assignment l))) :
    HeededVia E es cuts via σ σ' t (.text (.assignment loc)) := by
  have hno : ∀ {z i}, ¬ Heeds E.D es z i (.text (.assignment l)) := by
    rintro z i ⟨b2, k1, r, Q, k3, _⟩
    exact (hi b2 k1).1 r Q k3
  obtain ⟨t', ht, s, q, z, i, who, h1, h2, h3, h4, h5, h5', h6⟩ := h
  cases h6 with
  | refl => exact absurd h5 hno
  | @tail u _ h6 h7 =>
    have hu : HeededVia E es cuts via σ σ' t u := ⟨t', ht, s, q, z, i, who, h1, h2, h3, h4, h5, h5', h6⟩
    cases h7 with
    | cross _ _ _ k => exact absurd k (inert_cross hi)
    | move h7 _ _ =>
      cases h7 with
      | pass h7 =>
        cases h7 with
        | across _ _ _ _ _ k1 k3 => exact absurd k3 ((hi _ k1).1 _ _)
        | inner k1 k3 => exact absurd k3 ((hi _ k1).1 _ _)
        | iface _ _ _ k => exact absurd k (inert_cross hi)
        | control k1 k3 =>
          cases k3 with
          | guard k3 =>
            exact heededVia_chain (R := Guards b.stmt) (fun u v h => .control hb (.guard h)) hu (hg _ k1 _ k3)
          | self k3 => exact absurd k3 (hi _ k1).2
      | keep _ _ k => exact absurd k hno
      | enter _ _ _ _ k => exact absurd k hno
      | out _ _ _ _ k => exact absurd k hno

/-- A register bit differs only if the register is touched, or, if it is on an interface, an assignment that can
leave it its value. -/
theorem registerVia_touched (hr : RegularVia E es cuts via) (ht : TimedVia E es cuts via) (ho : ClocksOff E es cuts)
    (hf : Faithful M E es) (hf' : ∀ b ∈ blocksOf es, Clocked b → Reflects M b.stmt) (hT : Triggers E.D es T)
    (hs : Unrolls M E es (T σ) σ) (hs' : Unrolls M E es (T σ') σ')
    (hv : ∀ t, Shared E es via (σ t)) (hv' : ∀ t, Shared E es via (σ' t))
    (halike : ∀ b ∈ blocksOf es, ∀ x j, Kept b x j → OnIface E es x → ∀ t, T σ t b = T σ' t b)
    (hinit : ∀ b ∈ blocksOf es, ∀ x j, Kept b x j → σ 0 x j = σ' 0 x j) (L : List NodeData)
    (hL : ∀ u v, Passes E es cuts u v → u ∈ L) (hac : ∀ d, ¬ OnCycle (Passes E es cuts) d) (t : Nat) :
    RegsTouched E es cuts via σ σ' t := by
  induction t using Nat.strongRecOn with
  | ind t ih =>
    cases t with
    | zero => intro b hb x j hk hne; exact absurd (hinit b hb x j hk) hne
    | succ t =>
      intro b hb x j hk hne
      by_cases hold : σ t x j = σ' t x j
      · rw [hs.step t b hb x j hk, hs'.step t b hb x j hk] at hne
        by_cases hfire : T σ t b = T σ' t b
        · rw [← hfire] at hne
          split at hne
          · have hc := ht.sync b hb hk.1
            have hw : ∃ w ∈ allWrites b.stmt, Hits false x j w ∧
                HeededVia E es cuts via σ σ' t (.text (.assignment w.loc)) := by
              refine Classical.byContradiction fun hno => hne ?_
              refine later_agree (Bad := fun d => HeededVia E es cuts via σ σ' t (.text d)) (P := Start) hc
                (hf' b hb hk.1) ⟨[], rfl⟩ ?_ ?_ x j (fun w h1 h2 h3 => hno ⟨w, h1, h2, h3⟩) hold
              · intro who r Q hu hq hrf p hp hd
                obtain ⟨i, rfl⟩ := Int.eq_ofNat_of_zero_le (ht.count b hb hk.1 who r Q hu p hp)
                refine heedsVia_touched hr ht ho hf hs.stable hs'.stable hv hv' L hL hac (ih t (Nat.lt_succ_self t))
                  (.read ⟨b, hb, r, Q, hu, hq, rfl, hp, hrf, ?_⟩) trivial hd
                intro tr htr w hw hh
                obtain ⟨u, v, g1, rfl, g3⟩ := use_paths hu tr htr
                cases g1
                have := sync_writes hc w (g3 w (by simpa using hw))
                rw [hh.1] at this
                cases this
              · exact fun u v hg h => heededVia_pass h (.control hb (.guard hg))
            obtain ⟨w, w1, w2, w3⟩ := hw
            obtain ⟨loc, hl⟩ := lastAt_of_hit ⟨w, w1, w2⟩
            rw [← sync_nba hc] at hl
            have hlv : Leaves b.stmt x j loc := .inl hl
            have hloc : HeededVia E es cuts via σ σ' t (.text (.assignment loc)) := by
              rcases ht.last b hb hk.1 x j loc hlv w w1 w2 with e | ⟨e1, e2⟩
              · rw [← e]; exact w3
              · exact inertVia_touched e1 hb e2 w3
            exact ⟨fun hx => (hloc.tail (.move (.load hb hk hlv) trivial hx)).mono (Nat.le_succ t),
              fun _ => ⟨loc, hlv, hloc.mono (Nat.le_succ t)⟩⟩
          · exact absurd hold hne
        · refine ⟨fun hx => ?_, fun hx => absurd (halike b hb x j hk hx t) hfire⟩
          have : ∃ t' ≤ t, ∃ z i : Nat, Waits E.D b z i ∧ σ t' z i ≠ σ' t' z i := by
            refine Classical.byContradiction fun hno => hfire (hT b hb t σ σ' fun t' h' z i hw => ?_)
            exact Classical.byContradiction fun hd => hno ⟨t', h', z, i, hw, hd⟩
          obtain ⟨t', h', z, i, hw, hd⟩ := this
          exact (heedsVia_touched hr ht ho hf hs.stable hs'.stable hv hv' L hL hac (ih t' (by omega))
            (.edge hb hk hw) hx hd).mono (by omega)
      · obtain ⟨h1, h2⟩ := ih t (Nat.lt_succ_self t) b hb x j hk hold
        refine ⟨fun hx => (h1 hx).mono (Nat.le_succ t), fun hx => ?_⟩
        obtain ⟨loc, l1, l2⟩ := h2 hx
        exact ⟨loc, l1, l2.mono (Nat.le_succ t)⟩

end Verif.Proofs

import Verif.Spec.Tick
import Verif.Proofs.Clock

/-! Two runs of a design over time whose blocks may fire at different times: where they can differ. -/
namespace Verif.Proofs
open Verif.Model Verif.Spec Verif.Props

variable {V : Type} {M : Meaning V} {E : TravEnv} {es : List Event} {cuts : CutReg}
variable {T : (Nat → Vals V) → Nat → Deferred → Bool} {σ σ' : Nat → Vals V}

/-- A register bit is left its value by some assignment. -/
theorem kept_leaves (ht : Timed E es cuts) {b : Deferred} (hb : b ∈ blocksOf es) {x j : Nat} (hk : Kept b x j) :
    ∃ loc, Leaves b.stmt x j loc := by
  obtain ⟨hc, w, w1, w2⟩ := hk
  obtain ⟨loc, hl⟩ := lastAt_of_hit ⟨w, w1, w2⟩
  rw [← sync_nba (ht.sync b hb hc)] at hl
  exact ⟨loc, .inl hl⟩

/-- By time `t` an input whose values differ has been read, or waited for, at a point from which `v` can be
reached. -/
def TouchedBy (E : TravEnv) (es : List Event) (cuts : CutReg) (σ σ' : Nat → Vals V) (t : Nat) (v : Point) : Prop :=
  ∃ t' ≤ t, ∃ s q z i u, Source E es cuts s q ∧ ¬ Held E es cuts s q ∧ σ t' s q ≠ σ' t' s q ∧ Brings E es s q z i ∧
    Heeds E.D es z i u ∧ Reach (Moves E es cuts) u v

theorem TouchedBy.tail {t : Nat} {u v : Point} (h : TouchedBy E es cuts σ σ' t u) (hv : Moves E es cuts u v) :
    TouchedBy E es cuts σ σ' t v := by
  obtain ⟨t', ht, s, q, z, i, who, h1, h2, h3, h4, h5, h6⟩ := h
  exact ⟨t', ht, s, q, z, i, who, h1, h2, h3, h4, h5, h6.tail hv⟩

theorem TouchedBy.mono {t t' : Nat} {u : Point} (h : TouchedBy E es cuts σ σ' t u) (ht : t ≤ t') :
    TouchedBy E es cuts σ σ' t' u := by
  obtain ⟨t0, h0, h⟩ := h
  exact ⟨t0, by omega, h⟩

theorem touched_chain {R : NodeData → NodeData → Prop} (hR : ∀ u v, R u v → Passes E es cuts u v) {t : Nat}
    {u v : NodeData} (h : TouchedBy E es cuts σ σ' t (.text u)) (hr : Reach R u v) :
    TouchedBy E es cuts σ σ' t (.text v) := by
  induction hr with
  | refl => exact h
  | tail _ h' ih => exact ih.tail (.pass (hR _ _ h'))

/-- Where a difference in a source that is heeded comes from. -/
theorem source_touched (hr : Regular E es cuts) (ht : Timed E es cuts) (hs : ∀ t, Solves M E es (σ t))
    (hs' : ∀ t, Solves M E es (σ' t)) {t : Nat}
    (hreg : ∀ b ∈ blocksOf es, ∀ x j, Kept b x j → σ t x j ≠ σ' t x j → TouchedBy E es cuts σ σ' t (.reg x))
    {s q z i : Nat} {v : Point} (h1 : Source E es cuts s q) (h2 : σ t s q ≠ σ' t s q) (h3 : Brings E es s q z i)
    (h4 : Heeds E.D es z i v) : TouchedBy E es cuts σ σ' t v := by
  by_cases hh : Held E es cuts s q
  · obtain ⟨b, hb, x, j, hk, ha⟩ := hh
    rcases ha with ⟨rfl, rfl⟩ | ha
    · have l2 := hreg b hb s q hk h2
      cases h3 with
      | refl => exact l2.tail (.keep hb hk h4)
      | step h h3 =>
        obtain ⟨d0, d0'⟩ := hr.inlets _ _ _ _ h
        obtain ⟨d1, d2, d3⟩ := brings_down hr h3 d0 d0'
        exact l2.tail (.enter hb hk h d1 h4 d3 d2)
    · have hv : σ t x j ≠ σ' t x j := by
        rwa [arrives_value hr (hs t) ha, arrives_value hr (hs' t) ha] at h2
      obtain ⟨o1, o2⟩ := ht.outs b hb x j s q hk ha
      obtain ⟨d1, d2, d3⟩ := brings_down hr h3 o1 o2
      exact (hreg b hb x j hk hv).tail (.out hb hk ha d1 h4 d3 d2)
  · exact ⟨t, Nat.le_refl _, s, q, z, i, v, h1, hh, h2, h3, h4, .refl⟩

/-- A point that heeds a bit whose values differ is touched. -/
theorem heeds_touched (hr : Regular E es cuts) (ht : Timed E es cuts) (hf : Faithful M E es)
    (hs : ∀ t, Solves M E es (σ t)) (hs' : ∀ t, Solves M E es (σ' t)) (L : List NodeData)
    (hL : ∀ u v, Passes E es cuts u v → u ∈ L) (hac : ∀ d, ¬ OnCycle (Passes E es cuts) d) {t : Nat}
    (hreg : ∀ b ∈ blocksOf es, ∀ x j, Kept b x j → σ t x j ≠ σ' t x j → TouchedBy E es cuts σ σ' t (.reg x))
    {z i : Nat} {v : Point} (h : Heeds E.D es z i v) (hne : σ t z i ≠ σ' t z i) :
    TouchedBy E es cuts σ σ' t v := by
  obtain ⟨y, q, h1, h2, h3⟩ := trace_bit hr hf (hs t) (hs' t) z i hne
  rcases h3 with h3 | ⟨h3, h4⟩
  · exact source_touched hr ht hs hs' hreg h3 h2 h1 h
  · obtain ⟨hb, hk⟩ := down_bare hr h3 h4
    obtain ⟨b1, g1, g2, x, j, g3, g4⟩ := h3
    rw [arrives_value hr (hs t) g4, arrives_value hr (hs' t) g4] at h2
    obtain ⟨loc, l1, s, q', z', i', who', a1, a2, a3, a4, a5⟩ :=
      differs_touched hr hf (hs t) (hs' t) L hL hac g1 g2 g3 h2
    have hloc := touched_chain (fun u v h => h) (source_touched hr ht hs hs' hreg a1 a2 a3 (.read (fetches_sees a4))) a5
    cases h with
    | read h =>
      obtain ⟨b2, k1, r, Q, k3, k4, rfl, k6, k7, k8⟩ := h
      exact hloc.tail (.pass (.across g1 g2 l1 g4 h4 k1 k3 k4 k7 rfl k6 k8 hk hb))
    | edge e1 e2 e3 => exact hloc.tail (.clock g1 g2 l1 g4 h4 (.edge e1 e2 e3) hk hb)

/-- An assignment that reads nothing is only touched through the conditions in front of it. -/
theorem inert_touched {l loc : TextLoc} (hi : Inert es l) {b : Deferred} (hb : b ∈ blocksOf es)
    (hg : ∀ b' ∈ blocksOf es, ∀ u, Guards b'.stmt u (.assignment l) → Reach (Guards b.stmt) u (.assignment loc))
    {t : Nat} (h : TouchedBy E es cuts σ σ' t (.text (.assignment l))) :
    TouchedBy E es cuts σ σ' t (.text (.assignment loc)) := by
  have hno : ∀ {z i}, ¬ Heeds E.D es z i (.text (.assignment l)) := by
    rintro z i ⟨b2, k1, r, Q, k3, _⟩
    exact (hi b2 k1).1 r Q k3
  obtain ⟨t', ht, s, q, z, i, who, h1, h2, h3, h4, h5, h6⟩ := h
  cases h6 with
  | refl => exact absurd h5 hno
  | @tail u _ h6 h7 =>
    have hu : TouchedBy E es cuts σ σ' t u := ⟨t', ht, s, q, z, i, who, h1, h2, h3, h4, h5, h6⟩
    cases h7 with
    | pass h7 =>
      cases h7 with
      | across _ _ _ _ _ k1 k3 => exact absurd k3 ((hi _ k1).1 _ _)
      | inner k1 k3 => exact absurd k3 ((hi _ k1).1 _ _)
      | iface _ _ _ k => exact absurd k (inert_cross hi)
      | control k1 k3 =>
        cases k3 with
        | guard k3 => exact touched_chain (R := Guards b.stmt) (fun u v h => .control hb (.guard h)) hu (hg _ k1 _ k3)
        | self k3 => exact absurd k3 (hi _ k1).2
    | keep _ _ k => exact absurd k hno
    | enter _ _ _ _ k => exact absurd k hno
    | out _ _ _ _ k => exact absurd k hno

/-- A register bit differs only if the register is touched. -/
theorem register_touched (hr : Regular E es cuts) (ht : Timed E es cuts) (hf : Faithful M E es)
    (hf' : ∀ b ∈ blocksOf es, Clocked b → Reflects M b.stmt) (hT : Triggers E.D es T)
    (hs : Unrolls M E es (T σ) σ) (hs' : Unrolls M E es (T σ') σ')
    (hinit : ∀ b ∈ blocksOf es, ∀ x j, Kept b x j → σ 0 x j = σ' 0 x j) (L : List NodeData)
    (hL : ∀ u v, Passes E es cuts u v → u ∈ L) (hac : ∀ d, ¬ OnCycle (Passes E es cuts) d) (t : Nat) :
    ∀ b ∈ blocksOf es, ∀ x j, Kept b x j → σ t x j ≠ σ' t x j → TouchedBy E es cuts σ σ' t (.reg x) := by
  induction t using Nat.strongRecOn with
  | ind t ih =>
    cases t with
    | zero => intro b hb x j hk hne; exact absurd (hinit b hb x j hk) hne
    | succ t =>
      intro b hb x j hk hne
      by_cases hold : σ t x j = σ' t x j
      · rw [hs.step t b hb x j hk, hs'.step t b hb x j hk] at hne
        by_cases hfire : T σ t b = T σ' t b
        · rw [← hfire] at hne
          split at hne
          · have hc := ht.sync b hb hk.1
            have hw : ∃ w ∈ allWrites b.stmt, Hits false x j w ∧
                TouchedBy E es cuts σ σ' t (.text (.assignment w.loc)) := by
              refine Classical.byContradiction fun hno => hne ?_
              refine later_agree (Bad := fun d => TouchedBy E es cuts σ σ' t (.text d)) (P := Start) hc
                (hf' b hb hk.1) ⟨[], rfl⟩ ?_ ?_ x j (fun w h1 h2 h3 => hno ⟨w, h1, h2, h3⟩) hold
              · intro who r Q hu hq hrf p hp hd
                obtain ⟨i, rfl⟩ := Int.eq_ofNat_of_zero_le (ht.count b hb hk.1 who r Q hu p hp)
                refine heeds_touched hr ht hf hs.stable hs'.stable L hL hac (ih t (Nat.lt_succ_self t))
                  (.read ⟨b, hb, r, Q, hu, hq, rfl, hp, hrf, ?_⟩) hd
                intro tr htr w hw hh
                obtain ⟨u, v, g1, rfl, g3⟩ := use_paths hu tr htr
                cases g1
                have := sync_writes hc w (g3 w (by simpa using hw))
                rw [hh.1] at this
                cases this
              · exact fun u v hg h => h.tail (.pass (.control hb (.guard hg)))
            obtain ⟨w, w1, w2, w3⟩ := hw
            obtain ⟨loc, hlv⟩ := kept_leaves ht hb hk
            refine TouchedBy.mono (TouchedBy.tail ?_ (.load hb hk hlv)) (Nat.le_succ t)
            rcases ht.last b hb hk.1 x j loc hlv w w1 w2 with e | ⟨e1, e2⟩
            · rw [← e]; exact w3
            · exact inert_touched e1 hb e2 w3
          · exact absurd hold hne
        · have : ∃ t' ≤ t, ∃ z i : Nat, Waits E.D b z i ∧ σ t' z i ≠ σ' t' z i := by
            refine Classical.byContradiction fun hno => hfire (hT b hb t σ σ' fun t' h' z i hw => ?_)
            exact Classical.byContradiction fun hd => hno ⟨t', h', z, i, hw, hd⟩
          obtain ⟨t', h', z, i, hw, hd⟩ := this
          exact (heeds_touched hr ht hf hs.stable hs'.stable L hL hac (ih t' (by omega)) (.edge hb hk hw) hd).mono
            (by omega)
      · exact (ih t (Nat.lt_succ_self t) b hb x j hk hold).mono (Nat.le_succ t)

/-- The same for what other blocks assign. -/
theorem assigned_touched (hr : Regular E es cuts) (ht : Timed E es cuts) (hf : Faithful M E es)
    (hf' : ∀ b ∈ blocksOf es, Clocked b → Reflects M b.stmt) (hT : Triggers E.D es T)
    (hs : Unrolls M E es (T σ) σ) (hs' : Unrolls M E es (T σ') σ')
    (hinit : ∀ b ∈ blocksOf es, ∀ x j, Kept b x j → σ 0 x j = σ' 0 x j) (L : List NodeData)
    (hL : ∀ u v, Passes E es cuts u v → u ∈ L) (hac : ∀ d, ¬ OnCycle (Passes E es cuts) d) {t : Nat}
    {b : Deferred} (hb : b ∈ blocksOf es) (hk : ¬ Clocked b) {x j : Nat}
    (hw : ∃ w ∈ allWrites b.stmt, Hits true x j w) (hne : σ t x j ≠ σ' t x j) :
    ∃ loc, Leaves b.stmt x j loc ∧ TouchedBy E es cuts σ σ' t (.text (.assignment loc)) := by
  obtain ⟨loc, l1, s, q', z', i', who', a1, a2, a3, a4, a5⟩ :=
    differs_touched hr hf (hs.stable t) (hs'.stable t) L hL hac hb hk hw hne
  exact ⟨loc, l1, touched_chain (fun u v h => h) (source_touched hr ht hs.stable hs'.stable
    (register_touched hr ht hf hf' hT hs hs' hinit L hL hac t) a1 a2 a3 (.read (fetches_sees a4))) a5⟩

end Verif.Proofs

import Verif.Proofs.Meaning

/-! Where the difference between two solutions of a design comes from. -/
namespace Verif.Proofs
open Verif.Model Verif.Spec

/-! ### Induction along a relation without cycles -/

theorem count_less {α : Type} {p q : α → Bool} {L : List α} (h : ∀ x, p x = true → q x = true) {u : α} (hu : u ∈ L)
    (hq : q u = true) (hp : p u = false) : L.countP p < L.countP q := by
  have hle : ∀ l : List α, l.countP p ≤ l.countP q := fun l => List.countP_mono_left fun x _ => h x
  induction L with
  | nil => cases hu
  | cons x L ih =>
    rcases List.mem_cons.1 hu with e | hu
    · subst e
      have := hle L
      simp only [List.countP_cons, hq, hp, if_true]
      simp; omega
    · have := ih hu
      have hx := h x
      simp only [List.countP_cons]
      cases h1 : p x <;> cases h2 : q x <;> simp_all; omega

/-- Something from which `v` can be reached in one or more steps. -/
def Ahead {α : Type} (R : α → α → Prop) (u v : α) : Prop := ∃ w, Reach R u w ∧ R w v

theorem reach_cat {α : Type} {R : α → α → Prop} {a b c : α} (h1 : Reach R a b) (h2 : Reach R b c) : Reach R a c := by
  induction h2 with
  | refl => exact h1
  | tail _ h ih => exact ih.tail h

theorem ahead_trans {α : Type} {R : α → α → Prop} {a b c : α} (h1 : Ahead R a b) (h2 : Ahead R b c) : Ahead R a c := by
  obtain ⟨u, g1, g2⟩ := h1
  obtain ⟨w, g3, g4⟩ := h2
  exact ⟨w, reach_cat (g1.tail g2) g3, g4⟩

theorem ahead_first {α : Type} {R : α → α → Prop} {L : List α} (hL : ∀ u v, R u v → u ∈ L) {u v : α}
    (h : Ahead R u v) : u ∈ L := by
  obtain ⟨w, h1, h2⟩ := h
  suffices ∀ {b c}, Reach R u b → R b c → u ∈ L from this h1 h2
  intro b c h
  induction h generalizing c with
  | refl => exact fun h => hL _ _ h
  | tail _ h3 ih => exact fun _ => ih h3

open Classical in
theorem acyclic_induction {α : Type} {R : α → α → Prop} (L : List α) (hL : ∀ u v, R u v → u ∈ L)
    (hac : ∀ d, ¬ OnCycle R d) {C : α → Prop} (step : ∀ v, (∀ u, Ahead R u v → C u) → C v) (v : α) : C v := by
  generalize hn : L.countP (fun u => decide (Ahead R u v)) = n
  induction n using Nat.strongRecOn generalizing v with
  | ind n ih =>
    refine step v fun u hu => ih _ ?_ u rfl
    rw [← hn]
    refine count_less (u := u) (fun x hx => ?_) (ahead_first hL hu) (by simpa using hu) ?_
    · exact decide_eq_true (ahead_trans (of_decide_eq_true hx) hu)
    · exact decide_eq_false fun h => hac u h

/-! ### Connections -/

variable {V : Type} {M : Meaning V} {E : TravEnv} {es : List Event} {cuts : CutReg} {σ σ' : Vals V}

theorem comb_nba {W : List Wr} {st : Stmt} (h : Comb W st) : ∀ r, nbaWrites r st = [] := by
  induction h with
  | quiet h =>
    induction h with
    | skip => intro r; rfl
    | reads => intro r; rfl
    | seq _ _ ih1 ih2 => intro r; rw [nbaWrites, ih1, ih2]; rfl
  | assign => intro r; rfl
  | cond _ _ _ ih => intro r; simp [nbaWrites, ih]
  | seq _ _ ih1 ih2 => intro r; rw [nbaWrites, ih1, ih2]; rfl
  | choose _ _ ih1 ih2 => intro r; rw [nbaWrites, ih1, ih2]; rfl

theorem exits_outlet (ho : ∀ p k e, Before es p k → k.output = true → k.actual = some e → BitWise E.opts E.D k p.sym e)
    {prev : Option Conn} {k : Conn} {x y j q : Nat} {lo hi lo' hi' : Int}
    (h : Exits E es cuts prev k x lo hi j y lo' hi' q) : Outlet E es x j y q := by
  obtain ⟨p, h1, h2, _, _, _, h3, _⟩ := h
  obtain ⟨_, e, he, _⟩ := h2.2.2
  exact ⟨p, k, e, h1, h2, h3.1, he, ho p k e h2.1 h1 he⟩

theorem up_value (hr : Regular E es cuts) (hs : Solves M E es σ) {prev : Option Conn} {x y j q : Nat} {lo hi : Int}
    (h : Up E es cuts prev x lo hi j y q) : σ y q = σ x j := by
  induction h with
  | one h => exact hs.outlets _ _ _ _ (exits_outlet hr.outlets h)
  | more h _ ih => rw [ih]; exact hs.outlets _ _ _ _ (exits_outlet hr.outlets h)

theorem arrives_value (hr : Regular E es cuts) (hs : Solves M E es σ) {b : Deferred} {x y j q : Nat}
    (h : Arrives E es cuts b x j y q) : σ y q = σ x j := by
  rcases h with ⟨_, rfl, rfl⟩ | ⟨lo, hi, _, h⟩
  · rfl
  · exact up_value hr hs h

theorem brings_snoc {y q z i z' i' : Nat} (h : Brings E es y q z i) (h' : Inlet E es z i z' i') :
    Brings E es y q z' i' := by
  induction h with
  | refl => exact .step h' (.refl _ _)
  | step h _ ih => exact .step h (ih h')

theorem down_snoc {y q z i z' i' : Nat} (h : Down E es y q z i) (h' : Enters E es z i z' i') : Down E es y q z' i' := by
  induction h with
  | refl => exact .step h' (.refl _ _)
  | step h _ ih => exact .step h (ih h')

theorem enters_inlet {y q x j : Nat} (h : Enters E es y q x j) : Inlet E es y q x j := by
  obtain ⟨p, k, h1, h2, h3, _⟩ := h
  exact ⟨p, k, h1, h2, h3⟩

theorem down_last {y q z i : Nat} (h : Down E es y q z i) : (z = y ∧ i = q) ∨ ∃ y' q', Inlet E es y' q' z i := by
  induction h with
  | refl => exact .inl ⟨rfl, rfl⟩
  | step h _ ih =>
    rcases ih with ⟨rfl, rfl⟩ | ih
    · exact .inr ⟨_, _, enters_inlet h⟩
    · exact .inr ih

theorem down_bare (hr : Regular E es cuts) {y q z i : Nat} (ha : Assigned E es cuts y q) (h : Down E es y q z i) :
    Bare es z ∧ E.D.kind z ≠ .modportPort := by
  rcases down_last h with ⟨rfl, rfl⟩ | ⟨y', q', h⟩
  · exact hr.assigned _ _ ha
  · exact hr.inlets _ _ _ _ h

/-- A difference in a bit comes from a source, or from a bit that a block assigns. -/
theorem trace_bit (hr : Regular E es cuts) (hf : Faithful M E es) (hs : Solves M E es σ) (hs' : Solves M E es σ')
    (z i : Nat) (hne : σ z i ≠ σ' z i) : ∃ y q, Brings E es y q z i ∧ σ y q ≠ σ' y q ∧
      (Source E es cuts y q ∨ (Assigned E es cuts y q ∧ Down E es y q z i)) := by
  obtain ⟨depth, hd⟩ := hr.nested
  generalize hn : depth z = n
  induction n using Nat.strongRecOn generalizing z i with
  | ind n ih =>
    by_cases ha : Assigned E es cuts z i
    · exact ⟨z, i, .refl _ _, hne, .inr ⟨ha, .refl _ _⟩⟩
    · by_cases hin : ∃ y q, Inlet E es y q z i
      · obtain ⟨y, q, hin⟩ := hin
        have : ∃ y q, Inlet E es y q z i ∧ σ y q ≠ σ' y q := by
          refine Classical.byContradiction fun hc => hne ?_
          rw [hs.inlets _ _ _ _ hin, hs'.inlets _ _ _ _ hin]
          refine hf.inlets z i σ σ' ?_
          rintro y _ ⟨q, rfl, h⟩
          exact Classical.byContradiction fun h' => hc ⟨y, q, h, h'⟩
        obtain ⟨y, q, h1, h2⟩ := this
        obtain ⟨y0, q0, g1, g2, g3⟩ := ih _ (hn ▸ hd _ _ _ _ h1) y q h2 rfl
        refine ⟨y0, q0, brings_snoc g1 h1, g2, g3.imp id fun ⟨a, b⟩ => ⟨a, down_snoc b ?_⟩⟩
        obtain ⟨p, k, e1, e2, e3⟩ := h1
        obtain ⟨c1, c2⟩ := down_bare hr a b
        exact ⟨p, k, e1, e2, e3, c2, c1⟩
      · exact ⟨z, i, .refl _ _, hne, .inl ⟨ha, fun y q h => hin ⟨y, q, h⟩⟩⟩

theorem inlets_down {E : TravEnv} {es : List Event}
    (hi : ∀ y q x j, Inlet E es y q x j → Bare es x ∧ E.D.kind x ≠ .modportPort) {s q z i : Nat}
    (h : Brings E es s q z i) : Bare es s → E.D.kind s ≠ .modportPort →
    Down E es s q z i ∧ Bare es z ∧ E.D.kind z ≠ .modportPort := by
  induction h with
  | refl => exact fun h1 h2 => ⟨.refl _ _, h1, h2⟩
  | step h _ ih =>
    intro h1 h2
    obtain ⟨k1, k2⟩ := hi _ _ _ _ h
    obtain ⟨i1, i2, i3⟩ := ih k1 k2
    obtain ⟨p, k, e1, e2, e3⟩ := h
    exact ⟨.step ⟨p, k, e1, e2, e3, h2, h1⟩ i1, i2, i3⟩

theorem brings_down {E : TravEnv} {es : List Event} {cuts : CutReg} (hr : Regular E es cuts) {s q z i : Nat}
    (h : Brings E es s q z i) : Bare es s → E.D.kind s ≠ .modportPort →
    Down E es s q z i ∧ Bare es z ∧ E.D.kind z ≠ .modportPort :=
  inlets_down hr.inlets h

/-! ### Influence -/

theorem fetches_sees {z i : Nat} {who : NodeData} (h : Fetches es z i who) : Sees es z i who := by
  obtain ⟨b, h1, _, h2⟩ := h
  exact ⟨b, h1, h2⟩

/-- A source whose values differ is read by a node from which `d` can be reached. -/
def Touched (E : TravEnv) (es : List Event) (cuts : CutReg) (σ σ' : Vals V) (d : NodeData) : Prop :=
  ∃ s q z i who, Source E es cuts s q ∧ σ s q ≠ σ' s q ∧ Brings E es s q z i ∧ Fetches es z i who ∧
    Reach (Passes E es cuts) who d

/-- If the nodes outside `Bad` read the same from outside, the bits that only they leave agree. -/
theorem tame_agree (hcomb : ∀ b ∈ blocksOf es, ¬ Clocked b → Comb (allWrites b.stmt) b.stmt)
    (hsettled : ∀ b ∈ blocksOf es, ¬ Clocked b → Settled b.stmt)
    (hcomplete : ∀ b ∈ blocksOf es, ¬ Clocked b → Complete b.stmt)
    (hf : Faithful M E es) (hs : Solves M E es σ) (hs' : Solves M E es σ')
    (hac : ∀ d, ¬ OnCycle (Passes E es cuts) d) {Bad : NodeData → Prop}
    (hpass : ∀ u v, Passes E es cuts u v → Bad u → Bad v)
    (hout : ∀ z i who, Fetches es z i who → ¬ Bad who → σ z i = σ' z i) {b : Deferred} (hb : b ∈ blocksOf es)
    (hk : ¬ Clocked b) {x j : Nat} (hw : ∃ w ∈ allWrites b.stmt, Hits true x j w)
    (hl : ∀ loc, Leaves b.stmt x j loc → ¬ Bad (.assignment loc)) : σ x j = σ' x j := by
  have hc := hcomb b hb hk
  have hcl : Closes σ σ' Bad (allWrites b.stmt) Start b.stmt := by
    refine ⟨fun who r Q hu hrf p tr loc hp hq hl => hpass _ _ (.inner hb hu hrf hq hp hl), ?_,
      fun u v hg => hpass _ _ (.control hb (.guard hg)), fun loc hx =>
        hac (.assignment loc) ⟨_, .refl, .control hb (.self hx)⟩⟩
    rintro who r Q hu hrf p hp ⟨tr, ht, hn⟩ hne
    refine Classical.byContradiction fun hbad => ?_
    obtain ⟨h0, hset⟩ := hsettled b hb hk who r Q hu p hp
    obtain ⟨i, rfl⟩ := Int.eq_ofNat_of_zero_le h0
    rcases hset with h | h
    · exact hne (hout r.sym i who ⟨b, hb, hk, r, Q, hu, ⟨tr, ht⟩, rfl, hp, hrf, h⟩ hbad)
    · obtain ⟨w, hw, hh⟩ := h tr ht
      exact hn w hw hh
  have hi : Inv σ σ' Bad Start σ σ' := fun x p _ h => h ⟨[], rfl, by simp⟩
  have := inv_run hc (sel := fun _ => true) (hf.blocks b hb hk) hcl ⟨[], rfl⟩ hi x j ?_ ?_
  · rw [hs.blocks b hb hk x j hw, this, ← hs'.blocks b hb hk x j hw]
  · rintro _ loc ⟨_, v, rfl, hv, e⟩ hla
    rw [e] at hla
    exact hl loc (.inr ⟨by rw [comb_nba hc]; simp, v, hv, hla⟩)
  · rintro ⟨_, ⟨_, v, rfl, hv, e⟩, hn⟩
    rw [e] at hn
    obtain ⟨w, hw', hh⟩ := hcomplete b hb hk x j hw v hv
    exact absurd hh (hn w hw')

theorem block_agree (hr : Regular E es cuts) (hf : Faithful M E es) (hs : Solves M E es σ) (hs' : Solves M E es σ')
    (hac : ∀ d, ¬ OnCycle (Passes E es cuts) d) {Bad : NodeData → Prop}
    (hpass : ∀ u v, Passes E es cuts u v → Bad u → Bad v)
    (hout : ∀ z i who, Fetches es z i who → ¬ Bad who → σ z i = σ' z i) {b : Deferred} (hb : b ∈ blocksOf es)
    (hk : ¬ Clocked b) {x j : Nat} (hw : ∃ w ∈ allWrites b.stmt, Hits true x j w)
    (hl : ∀ loc, Leaves b.stmt x j loc → ¬ Bad (.assignment loc)) : σ x j = σ' x j :=
  tame_agree hr.comb hr.settled hr.complete hf hs hs' hac hpass hout hb hk hw hl

/-- What a node reads from outside agrees, unless it is touched. -/
theorem fetch_agree (hr : Regular E es cuts) (hf : Faithful M E es) (hs : Solves M E es σ) (hs' : Solves M E es σ')
    (L : List NodeData) (hL : ∀ u v, Passes E es cuts u v → u ∈ L) (hac : ∀ d, ¬ OnCycle (Passes E es cuts) d)
    (v : NodeData) : ¬ Touched E es cuts σ σ' v → ∀ z i, Fetches es z i v → σ z i = σ' z i := by
  refine acyclic_induction L hL hac (C := fun v => ¬ Touched E es cuts σ σ' v → ∀ z i, Fetches es z i v → σ z i = σ' z i)
    (fun v ih ht z i hfe => ?_) v
  refine Classical.byContradiction fun hne => ?_
  obtain ⟨y, q, h1, h2, h3⟩ := trace_bit hr hf hs hs' z i hne
  rcases h3 with h3 | ⟨h3, h4⟩
  · exact ht ⟨y, q, z, i, v, h3, h2, h1, hfe, .refl⟩
  · obtain ⟨hb, hk⟩ := down_bare hr h3 h4
    obtain ⟨b1, g1, g2, x, j, g3, g4⟩ := h3
    obtain ⟨b2, k1, k2, r, Q, k3, k4, rfl, k6, k7, k8⟩ := hfe
    have hp : ∀ loc, Leaves b1.stmt x j loc → Passes E es cuts (.assignment loc) v := fun loc hl =>
      .across g1 g2 hl g4 h4 k1 k3 k4 k7 rfl k6 k8 hk hb
    rw [arrives_value hr hs g4, arrives_value hr hs' g4] at h2
    refine h2 (block_agree hr hf hs hs' hac
      (Bad := fun u => ¬ Ahead (Passes E es cuts) u v ∨ Touched E es cuts σ σ' u) ?_ ?_ g1 g2 g3 ?_)
    · rintro u w huw (h | ⟨s, q', z', i', who, a1, a2, a3, a4, a5⟩)
      · exact .inl fun hw => h (ahead_trans ⟨u, .refl, huw⟩ hw)
      · exact .inr ⟨s, q', z', i', who, a1, a2, a3, a4, a5.tail huw⟩
    · intro z' i' who hfe' hb'
      have h1 : Ahead (Passes E es cuts) who v := Classical.byContradiction fun h => hb' (.inl h)
      exact ih who h1 (fun h => hb' (.inr h)) z' i' hfe'
    · rintro loc hl (h | ⟨s, q', z', i', who, a1, a2, a3, a4, a5⟩)
      · exact h ⟨_, .refl, hp loc hl⟩
      · exact ht ⟨s, q', z', i', who, a1, a2, a3, a4, a5.tail (hp loc hl)⟩

/-- A bit of a block differs only if one of the assignments that can leave it its value is touched. -/
theorem differs_touched (hr : Regular E es cuts) (hf : Faithful M E es) (hs : Solves M E es σ)
    (hs' : Solves M E es σ') (L : List NodeData) (hL : ∀ u v, Passes E es cuts u v → u ∈ L)
    (hac : ∀ d, ¬ OnCycle (Passes E es cuts) d) {b : Deferred} (hb : b ∈ blocksOf es) (hk : ¬ Clocked b) {x j : Nat}
    (hw : ∃ w ∈ allWrites b.stmt, Hits true x j w) (hne : σ x j ≠ σ' x j) :
    ∃ loc, Leaves b.stmt x j loc ∧ Touched E es cuts σ σ' (.assignment loc) := by
  refine Classical.byContradiction fun hc => hne (block_agree hr hf hs hs' hac (Bad := Touched E es cuts σ σ')
    ?_ ?_ hb hk hw fun loc hl ht => hc ⟨loc, hl, ht⟩)
  · rintro u w huw ⟨s, q', z', i', who, a1, a2, a3, a4, a5⟩
    exact ⟨s, q', z', i', who, a1, a2, a3, a4, a5.tail huw⟩
  · intro z i who hfe ht
    exact fetch_agree hr hf hs hs' L hL hac who ht z i hfe

end Verif.Proofs

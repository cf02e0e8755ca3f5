import Verif.Proofs.SoundBlock
import Verif.Proofs.Netlist

/-! Helper lemmas: every edge made while the design is traversed is justified. -/
namespace Verif.Proofs
open Verif.Spec Verif.Model Verif.Props

/-- A connection ties what it is said to tie. -/
def Binds (E : TravEnv) (G : Grain) : Prop :=
  ∀ k s j y i, Mentions k y → (Simple E.opts E.D k → Direct E.opts E.D k →
    ∃ j' i' : Nat, (j' : Int) = j ∧ (i' : Int) = i ∧ Ties E.opts E.D k s j' y i') → G.tie k s j y i

/-- The state of the traversal. -/
structure SC (E : TravEnv) (es : List Event) (G : Grain) (c : Col) : Prop where
  fine : Fine E.D c
  just : Just (jus E es G) c.b.net
  vars : ∀ y, ∀ e ∈ c.b.vars y, Stands E es G y (c.b.net.data e.val)
  queue : ∀ x ∈ c.b.queue, ∀ n, x.node = some n → ∀ i, InRng x.bounds i →
    WantsAs E es G x.kind x.sym i (c.b.net.data n)
  hist : ∀ x ∈ c.hist, ∃ n lsp, x.2.drivers = [⟨some n, lsp⟩] ∧ n ∈ c.b.net.g.nodes ∧
    ∀ i, InRng x.2.bounds i → Rcd E es G x.1 i (c.b.net.data n)

theorem sc_start (E : TravEnv) (es : List Event) (G : Grain) : SC E es G {} := by
  refine ⟨fine_start _, just_empty _, ?_, ?_, ?_⟩
  · intro y e he; cases he
  · intro x hx; cases hx
  · intro x hx; cases hx

theorem entry_at {E : TravEnv} {es : List Event} {G : Grain} {c : Col} (h : SC E es G c) {y : Nat} {e : Ivl Nat}
    (he : e ∈ c.b.vars y) {j : Int} (h1 : e.lo ≤ j) (h2 : j ≤ e.hi) : StandsAt E es G y (c.b.net.data e.val) j := by
  obtain ⟨_, nb, h3, h4, h5⟩ := h.fine.ok.vars y e he
  exact ⟨h.vars y e he, nb, h3, (inRng_iff _ _).2 ⟨by omega, by omega⟩⟩

/-- What a connection reads or drives is tied to a bit of the port node. -/
theorem conn_tied {E : TravEnv} {es : List Event} {G : Grain} {c : Col} (hG : Binds E G) (h : SC E es G c) {k : Conn}
    {R W : Nat → BitRange → Nat → Prop} (hk : ConnEff E k R W c) {y : Nat} {b : BitRange} {n : Nat}
    (hr : R y b n ∨ W y b n) {i : Int} (hi : InRng b i) : n ∈ c.b.net.g.nodes ∧
      ∃ s f j, k.formal = .port s f ∧ StandsAt E es G s (c.b.net.data n) j ∧ G.tie k s j y i := by
  obtain ⟨h1, h2, s, f, hf, e, he, rfl⟩ := hk.only y b n hr
  have hm : Mentions k y := hk.root y b _ hr
  refine ⟨(h.fine.ok.vars s e he).1, ?_⟩
  by_cases hs : Simple E.opts E.D k ∧ Direct E.opts E.D k
  · obtain ⟨q1, q2⟩ := bounds_lower h1
    have hi' := (inRng_iff _ _).1 hi
    have hq : ((i.toNat : Nat) : Int) = i := Int.toNat_of_nonneg (by omega)
    obtain ⟨s', e', he', hv, j, l1, l2, ht⟩ := hk.exact hs.1 hs.2 y b _ hr i.toNat (by rw [hq]; exact hi)
    obtain ⟨f', hf'⟩ := ht.1
    exact ⟨s', f', j, hf', hv ▸ entry_at h he' l1 l2, hG _ _ _ _ _ hm fun _ _ => ⟨j, i.toNat, rfl, hq, ht⟩⟩
  · obtain ⟨_, l1, _⟩ := h.fine.rng s e he
    exact ⟨s, f, e.lo, hf, entry_at h he (by omega) l1, hG _ _ _ _ _ hm fun a b => absurd ⟨a, b⟩ hs⟩

theorem step_sound {E : TravEnv} {es : List Event} {G : Grain} {c c' : Col} (hsub : ∀ b i, InRng b i → G.near b i)
    (hG : Binds E G) (h : SC E es G c) {ev : Event} (hev : ev ∈ es) (hok : EventOk E.D ev)
    (hs : Col.step E c ev = .ok c') : SC E es G c' := by
  have mono : ∀ {M : NodeData → Prop} {S : Nat → Prop}, Grew M S c c' → Fine E.D c' → c'.b.queue = c.b.queue →
      Just (jus E es G) c'.b.net → (∀ y, S y → y ∈ declares ev) → (∀ d, M d → Makes E.D ev d) →
      (∃ hh, c'.hist = c.hist ++ hh ∧ ∀ x ∈ hh, ∃ n lsp, x.2.drivers = [⟨some n, lsp⟩] ∧ n ∈ c'.b.net.g.nodes ∧
        ∀ i, InRng x.2.bounds i → Rcd E es G x.1 i (c'.b.net.data n)) → SC E es G c' := by
    intro M S hg hf hq hj hS hM ⟨hh, e1, e2⟩
    refine ⟨hf, hj, ?_, ?_, ?_⟩
    · intro y e he
      rcases hg.fresh y e he with he | ⟨h1, _, h3⟩
      · rw [hg.net.data _ (h.fine.ok.vars y e he).1]; exact h.vars y e he
      · exact .made hev (hS y h1) (hM _ h3)
    · intro x hx n hn
      rw [hq] at hx
      rw [hg.net.data n (h.fine.ok.pend x hx n hn)]
      exact h.queue x hx n hn
    · intro x hx
      rw [e1] at hx
      rcases List.mem_append.1 hx with hx | hx
      · obtain ⟨n, lsp, g1, g2, g3⟩ := h.hist x hx
        exact ⟨n, lsp, g1, hg.net.nodes n g2, by rw [hg.net.data n g2]; exact g3⟩
      · exact e2 x hx
  cases ev with
  | port p =>
    obtain ⟨c1, a1, a2⟩ := port_ok h.fine hok
    rw [hs] at a1; cases a1
    refine mono a2.grew a2.fine a2.still.queue (a2.still.just _ h.just) (fun _ h => h) (fun _ h => h) ?_
    obtain ⟨l, h1, _, h2, _⟩ := a2.hist
    refine ⟨l, h1, fun x hx => ?_⟩
    obtain ⟨n, g1, g2, g3, g4, g5, _, d, hd, g6, g7, g8⟩ := h2 x hx
    refine ⟨n, 0, g1, (a2.fine.ok.vars _ _ g2).1, fun i hi => ?_⟩
    rw [g4]
    exact .input hev g3 hd g6 g7 g5 g8 (hsub _ _ hi)
  | «variable» sym ds =>
    obtain ⟨c1, a1, a2, a3, a4, a5, _⟩ := variable_ok ds h.fine hok
    have a1 : Col.step E c (.variable sym ds) = .ok c1 := a1
    rw [hs] at a1; cases a1
    exact mono a3 a2 a4.queue (a4.just _ h.just) (fun _ h => h) (fun _ h => h) ⟨[], by simp [a5], by simp⟩
  | block b =>
    cases hs
    exact ⟨⟨h.fine.ok, h.fine.hist, h.fine.cuts, h.fine.rng⟩, h.just, h.vars, h.queue, h.hist⟩
  | box p =>
    cases hs
    exact ⟨⟨h.fine.ok, h.fine.hist, h.fine.cuts, h.fine.rng⟩, h.just, h.vars, h.queue, h.hist⟩
  | cuts k =>
    obtain ⟨r, h1, h2, h3⟩ := recordCut_ok h.fine k
    simp only [Col.step, h1] at hs
    cases hs
    exact ⟨⟨h.fine.ok, h.fine.hist, h2, h.fine.rng⟩, h.just, h.vars, h.queue, h.hist⟩
  | connect k =>
    obtain ⟨c1, R, W, a1, a2, a3⟩ := connect_ok h.fine hok
    have a1 : Col.step E c (.connect k) = .ok c1 := a1
    rw [hs] at a1; cases a1
    have hvars : c'.b.vars = c.b.vars := funext fun y => a2.grew.fixed y id
    have hdat : ∀ n ∈ c.b.net.g.nodes, c'.b.net.data n = c.b.net.data n := a2.grew.net.data
    have hrcd : ∀ {y b n i}, W y b n → InRng b i → n ∈ c.b.net.g.nodes ∧ Rcd E es G y i (c.b.net.data n) ∧
        WritesTo E es G y i (c.b.net.data n) := by
      intro y b n i hw hi
      obtain ⟨hn, s, f, j, g1, g2, g3⟩ := conn_tied hG h a3 (.inr hw) hi
      exact ⟨hn, .output hev (a3.input _ _ _ hw) g1 g2 g3, .output hev (a3.input _ _ _ hw) g1 g2 g3⟩
    have hwant : ∀ {y b n i}, R y b n → InRng b i → n ∈ c.b.net.g.nodes ∧ Wants E es G y i (c.b.net.data n) := by
      intro y b n i hr hi
      obtain ⟨hn, s, f, j, g1, g2, g3⟩ := conn_tied hG h a3 (.inl hr) hi
      refine ⟨hn, .input hev ?_ g1 g2 g3⟩
      cases ho : k.output with
      | false => exact .inl rfl
      | true => exact .inr (a3.side _ _ _ hr ho)
    refine ⟨a2.fine, a2.just _ h.just ?_ ?_ ?_, ?_, ?_, ?_⟩
    · intro y b n hw _ pp pn h1 h2 i hi
      obtain ⟨hn, hr⟩ := hrcd hw hi
      obtain ⟨e, he, h3⟩ := portNodeFor_mem h2
      have hp : pn ∈ c.b.net.g.nodes := h3 ▸ (h.fine.ok.vars pp e he).1
      rw [hdat n hn, hdat pn hp]
      exact .outward rfl hr.2 h1 (portNodeFor_stands h.fine.ok h.vars h2 hi)
    · intro y b n hr _ hk lsp v hv m hm i hi
      obtain ⟨hn, hw⟩ := hwant hr hi
      obtain ⟨hp, h1, nb, h2, h3⟩ := lookup_stands h.fine.ok h.vars hm
      rw [hdat n hn, hdat m hp]
      exact .between rfl (.modport hk hv h1 h2 h3) hw
    · rintro hK n ⟨s, f, hf, e, he, rfl⟩ _ v w
      rw [hdat _ (h.fine.ok.vars s e he).1]
      exact .tied hev hK hf (h.vars s e he)
    · intro y e he
      rw [hvars] at he
      rw [hdat _ (h.fine.ok.vars y e he).1]; exact h.vars y e he
    · intro x hx n hn i hi
      rcases (a2.queue x).1 hx with hx | ⟨y, b, m, hr, _, rfl⟩
      · rw [hdat n (h.fine.ok.pend x hx n hn)]; exact h.queue x hx n hn i hi
      · cases hn
        obtain ⟨hm, hw⟩ := hwant hr hi
        rw [hdat _ hm]; exact ⟨hw, fun h => absurd rfl h⟩
    · intro x hx
      obtain ⟨l, e1, e2, _⟩ := a2.hist
      rw [e1] at hx
      rcases List.mem_append.1 hx with hx | hx
      · obtain ⟨n, lsp, g1, g2, g3⟩ := h.hist x hx
        exact ⟨n, lsp, g1, a2.grew.net.nodes n g2, by rw [hdat n g2]; exact g3⟩
      · obtain ⟨_, n, lsp, g1, g2⟩ := e2 x hx
        obtain ⟨hn, _⟩ := hrcd g2 (inRng_self _)
        refine ⟨n, lsp, g1, a2.grew.net.nodes n hn, fun i hi => ?_⟩
        rw [hdat n hn]; exact (hrcd g2 hi).2.1

theorem steps_sound {E : TravEnv} {es : List Event} {G : Grain} (hsub : ∀ b i, InRng b i → G.near b i)
    (hG : Binds E G) (l : List Event) : ∀ {c c' : Col}, SC E es G c → (∀ ev ∈ l, ev ∈ es) →
      (∀ ev ∈ l, EventOk E.D ev) → Col.steps E c l = .ok c' → SC E es G c' := by
  induction l with
  | nil => intro c c' h _ _ hs; cases hs; exact h
  | cons ev l ih =>
    intro c c' h h1 h2 hs
    simp only [Col.steps] at hs
    split at hs
    · cases hs
    · rename_i c1 e1
      exact ih (step_sound hsub hG h (h1 ev List.mem_cons_self) (h2 ev List.mem_cons_self) e1)
        (fun e he => h1 e (List.mem_cons_of_mem _ he)) (fun e he => h2 e (List.mem_cons_of_mem _ he)) hs

/-! ### The driver maps at the end of the traversal -/

theorem run_sound {E : TravEnv} {es : List Event} {G : Grain} {K : Disc} (hG : GOk E es G K) {net : NetGraph}
    (hist : List (Nat × Rec)) : ∀ {t t' : Tracker} {drv drv' : List DMap}, TrkOk t → K.I (RcdN E es G net) t drv →
      (∀ x ∈ hist, K.fit x.1 x.2.bounds) →
      (∀ x ∈ hist, ∃ n lsp, x.2.drivers = [⟨some n, lsp⟩] ∧ n ∈ net.g.nodes ∧
        ∀ i, InRng x.2.bounds i → Rcd E es G x.1 i (net.data n)) →
      t.run drv hist = .ok (t', drv') → TrkOk t' ∧ K.I (RcdN E es G net) t' drv' := by
  induction hist with
  | nil => intro t t' drv drv' h1 h2 _ _ h; cases h; exact ⟨h1, h2⟩
  | cons x hist ih =>
    obtain ⟨y, r⟩ := x
    intro t t' drv drv' h1 h2 h3 h4 h
    simp only [Tracker.run] at h
    obtain ⟨⟨t1, drv1⟩, e1, h⟩ := bind_ok h
    obtain ⟨n, lsp, g1, g2, g3⟩ := h4 _ List.mem_cons_self
    have hN : ∀ i, InRng r.bounds i → RcdN E es G net y i (some n) := fun i hi => ⟨n, g2, rfl, g3 i hi⟩
    have hb : t.addDrivers drv y ⟨r.bounds, r.drivers, r.merge⟩ = .ok (t1, drv1) := e1
    obtain ⟨k1, _, k2⟩ := disc_add K (rcd_adm hG net) h1 h2 (h3 _ List.mem_cons_self)
      (by rw [show r.drivers = _ from g1]; exact K.one (hN _ (inRng_self r.bounds)) lsp)
      (by
        rintro d ⟨z, hz, rfl⟩ p hp
        rw [show r.drivers = _ from g1, List.mem_singleton] at hz
        subst hz; exact hN p hp) hb
    exact ih k1 k2 (fun x hx => h3 x (List.mem_cons_of_mem _ hx)) (fun x hx => h4 x (List.mem_cons_of_mem _ hx)) h

theorem start_bld {E : TravEnv} {es : List Event} {G : Grain} {K : Disc} (hG : GOk E es G K) {c : Col} (h : SC E es G c)
    (hf : ∀ x ∈ c.hist, K.fit x.1 x.2.bounds) {s : Bld} (hs : c.start = .ok s) : SB E es G K s := by
  unfold Col.start at hs
  split at hs
  · cases hs
  · rename_i t drv e1
    cases hs
    obtain ⟨h1, h2⟩ := run_sound hG c.hist trkOk_empty (K.empty _ _) hf h.hist e1
    exact ⟨⟨h.fine.ok.reach, h.fine.ok.vars, h.fine.ok.pend⟩, h.just, h1, h2, h.vars, h.queue⟩

/-! ### The whole build -/

theorem sound_of {E : TravEnv} {es : List Event} {G : Grain} {net : NetGraph}
    (h : Just (jus E es G) net) : Sound E es G net := by
  intro s hs e he
  have := h s e.tgt (net.attr e.id) ?_
  · refine ⟨this.1, this.2.1, ?_⟩
    have := this.2.2
    revert this
    cases (net.attr e.id).symbol with
    | none => exact id
    | some r => exact id
  · exact List.mem_map.2 ⟨e, List.mem_filter.2 ⟨he, by simp⟩, rfl⟩

theorem netlist_sound {E : TravEnv} {boxed : Str → Str → Bool} {ord : Tracker → List (Nat × Nat)} {top : List Member}
    {G : Grain} {K : Disc} (hb : DecidesBoxes E.opts.boxes boxed)
    (hok : ∀ ev ∈ eventsAll boxed E.opts.propCuts top, EventOk E.D ev) (hv : Visits ord)
    (hG : GOk E (eventsAll boxed E.opts.propCuts top) G K) (hB : Binds E G)
    (hf : ∀ c, phase1 E top = .ok c → ∀ x ∈ c.hist, K.fit x.1 x.2.bounds) {net : NetGraph}
    (h : netlist E ord top = .ok net) : Reachable net ∧ Sound E (eventsAll boxed E.opts.propCuts top) G net := by
  unfold netlist at h
  split at h
  · cases h
  rename_i c e1
  split at h
  · cases h
  rename_i s e2
  have e1' := e1
  rw [phase1, visitAll_steps hb] at e1'
  have hc := steps_sound hG.sub hB _ (sc_start E _ G) (fun _ h => h) hok e1'
  obtain ⟨c', b1, b2⟩ := steps_ok _ (fine_start E.D) hok
  rw [e1'] at b1; cases b1
  have hbl := b2.blocks
  simp only [List.nil_append] at hbl
  obtain ⟨r1, r2⟩ := build_sound hG hv (by rw [hbl]; exact fun _ h => h) (start_bld hG hc (hf c e1) e2) h
  exact ⟨r1, sound_of r2⟩

end Verif.Proofs

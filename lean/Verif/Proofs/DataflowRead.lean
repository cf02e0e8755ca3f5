import Verif.Proofs.DataflowExec

/-! What a read adds to the graph and the queue, and what the non-blocking writes do at the end. -/
namespace Verif.Proofs
open Verif.Spec Verif.Model Verif.Props

theorem readFits_clean {W : List Wr} {sym : Nat} {b : BitRange} (h : ReadFits W sym b)
    {e : Ivl Nat} (he : Fits W sym e.lo e.hi) (hne : e.lo ≤ e.hi) (h1 : e.lo ≤ b.upper)
    (h2 : b.lower ≤ e.hi) : Clean b e := by
  have hbl : b.lower ≤ b.upper := by simp only [BitRange.lower, BitRange.upper]; omega
  rcases h with h | h
  · obtain ⟨w, hw, hs, h3, h4⟩ := he.inside
    have hk := h w hw hs ⟨max e.lo b.lower, by rw [inRng_iff]; omega, by rw [inRng_iff]; omega⟩
    right
    have a1 := hk e.lo (by rw [inRng_iff]; omega)
    have a2 := hk e.hi (by rw [inRng_iff]; omega)
    rw [inRng_iff] at a1 a2
    omega
  · left
    have a1 := h e.lo he.lo
    have a2 := h (e.hi + 1) he.hi
    rw [inRng_iff, inRng_iff] at a1 a2
    omega

/-- One read made for a node. -/
theorem handleRvalue_spec {c : DfaCtx} {W : List Wr} {s : Dfa} (hok : Ok c W s) (r : Ref) {n : Nat}
    (hn : s.cur.node = some n) (hf : ReadFits W r.sym r.bounds) :
    ∃ s' q, s.handleRvalue c r = .ok s' ∧ ReadLe s s' ∧ s'.queue = s.queue ++ q ∧
      (∀ x ∈ q, x.sym = r.sym ∧ x.node = some n ∧ x.kind = .none ∧ c.D.kind r.sym ≠ .modportPort) ∧
      (∀ x ∈ q, ∀ p, InRng x.bounds p → InRng r.bounds p ∧
        ((∀ d, ¬ DAt s.trk s.cur.drv r.sym p d) ∨ p = r.bounds.upper)) ∧
      (∀ p, InRng r.bounds p → (∀ d, ¬ DAt s.trk s.cur.drv r.sym p d) →
        c.D.kind r.sym ≠ .modportPort → ∃ x ∈ q, InRng x.bounds p) ∧
      (∀ p k, InRng r.bounds p → DAt s.trk s.cur.drv r.sym p (some k) → Joined s'.net k n) ∧
      (∀ p, InRng r.bounds p → (∀ d, ¬ DAt s.trk s.cur.drv r.sym p d) →
        c.D.kind r.sym = .modportPort → ∀ a, Behind c r a → Joined s'.net a n) ∧
      ∀ a k, Joined s'.net a k → Joined s.net a k ∨ (k = n ∧
        ((∃ p, InRng r.bounds p ∧ DAt s.trk s.cur.drv r.sym p (some a)) ∨
          (c.D.kind r.sym = .modportPort ∧ Behind c r a))) := by
  have hnn := hok.flow.node n hn
  have hbl : r.bounds.lower ≤ r.bounds.upper := by simp only [BitRange.lower, BitRange.upper]; omega
  unfold Dfa.handleRvalue
  cases hg : (s.trk.getSlot r.sym).bind (fun i => s.cur.drv[i]?) with
  | none =>
    have hnone : ∀ p d, ¬ DAt s.trk s.cur.drv r.sym p d := by
      rintro p d ⟨i, m, h1, h2, _⟩
      rw [getSlot_of_mem hok.trk.keys h1] at hg
      simp only [Option.bind_some] at hg
      rw [h2] at hg; cases hg
    have hor : s.cur.node.or c.ext = some n := by rw [hn]; rfl
    rw [hor]
    obtain ⟨s', h1, h2, h3, h4⟩ := addRvalue_ok hok r r.bounds (node := some n)
      (fun k hk => by cases hk; exact hnn)
    by_cases hk : c.D.kind r.sym = .modportPort
    · obtain ⟨g1, g2⟩ := h4 n hk rfl
      refine ⟨s', [], h1, h2, by simp [g1], by simp, by simp, fun p _ _ h => absurd hk h,
        fun p k _ h => absurd h (hnone _ _), fun p _ _ _ a ha => (g2 a n).2 (.inr ⟨ha, rfl⟩), ?_⟩
      intro a k h
      rcases (g2 a k).1 h with h | ⟨h, rfl⟩
      · exact .inl h
      · exact .inr ⟨rfl, .inr ⟨hk, h⟩⟩
    · obtain ⟨g1, g2⟩ := h3 (.inl hk)
      refine ⟨s', _, h1, h2, g2, ?_, ?_, ?_, fun p k _ h => absurd h (hnone _ _),
        fun p _ _ h => absurd h hk, fun a k h => .inl (g1 ▸ h)⟩
      · intro x hx; simp only [List.mem_singleton] at hx; subst hx; exact ⟨rfl, rfl, rfl, hk⟩
      · intro x hx p hp; simp only [List.mem_singleton] at hx; subst hx
        exact ⟨hp, .inl (hnone p)⟩
      · intro p hp _ _; exact ⟨_, List.mem_singleton_self _, hp⟩
  | some m =>
    simp only [hn]
    obtain ⟨i, hi, hm⟩ := Option.bind_eq_some_iff.1 hg
    have his := getSlot_mem hi
    obtain ⟨hI, hfit⟩ := hok.flow.drv.maps _ i m his hm
    have hfull := hok.flow.drv.full _ i m his hm
    have hdat : ∀ p d, DAt s.trk s.cur.drv r.sym p d ↔ Drv m p d := by
      intro p d
      constructor
      · rintro ⟨k, mk, h1, h2, h3⟩
        rw [hok.trk.slot_unique h1 his, hm] at h2; cases h2; exact h3
      · intro h; exact ⟨i, m, his, hm, h⟩
    have hcov : ∀ p, (∀ d, ¬ DAt s.trk s.cur.drv r.sym p d) ↔ ¬ Covers m.ivls p := by
      intro p
      constructor
      · intro h hc
        obtain ⟨d, hd⟩ := hfull p hc
        exact h d ((hdat p d).2 hd)
      · intro h d hd
        obtain ⟨e, he, h1, h2, _⟩ := (hdat p d).1 hd
        exact h ⟨e, he, h1, h2⟩
    have hes : ∀ e ∈ imFind m.ivls r.bounds.lower r.bounds.upper,
        e ∈ m.ivls ∧ e.lo ≤ r.bounds.upper ∧ r.bounds.lower ≤ e.hi := by
      intro e he
      obtain ⟨g1, g2⟩ := List.mem_filter.1 he
      simp [Ivl.hits] at g2
      exact ⟨g1, g2⟩
    obtain ⟨ds, fin, h1, h2, h3, h4⟩ := readLoop_spec hI r.bounds n (c.D.ref r.sym) _ hes
    have hpw : (imFind m.ivls r.bounds.lower r.bounds.upper).Pairwise fun x y => x.hi < y.lo :=
      hI.ok.2.sublist List.filter_sublist
    have hsrc : ∀ d ∈ ds, d.tgt = n ∧ ∃ p, InRng r.bounds p ∧
        DAt s.trk s.cur.drv r.sym p (some d.src) := by
      intro d hd
      obtain ⟨g1, _, _, e, he, _, l, hl, hh⟩ := h2 d hd
      obtain ⟨he1, he2, he3⟩ := hes e he
      have hne := hI.ok.1 e he1
      exact ⟨g1, max e.lo r.bounds.lower, by rw [inRng_iff]; omega,
        (hdat _ _).2 ⟨e, he1, by omega, by omega, l, hl, hh⟩⟩
    obtain ⟨s1, k1, k2, k3, k4⟩ := dfa_addDeps hok.net (ds := ds) (by
      intro d hd
      obtain ⟨g1, p, _, hp⟩ := hsrc d hd
      obtain ⟨loc, n', hn', hs, _⟩ := hok.flow.assign _ _ _ hp
      cases hs
      exact ⟨hn', g1 ▸ hnn⟩)
    have hjoin : ∀ p k, InRng r.bounds p → DAt s.trk s.cur.drv r.sym p (some k) →
        Joined s1.net k n := by
      intro p k hp hd
      obtain ⟨e, he, g1, g2, l, hl, hh⟩ := (hdat p (some k)).1 hd
      rw [inRng_iff] at hp
      have hc := readFits_clean hf (hfit e he) (hI.ok.1 e he) (by omega) (by omega)
      have hmem : e ∈ imFind m.ivls r.bounds.lower r.bounds.upper :=
        List.mem_filter.2 ⟨he, by simp [Ivl.hits]; omega⟩
      exact (k4 k n).2 (.inr ⟨_, h3 hpw e hmem hc l k hl hh, rfl, rfl⟩)
    have hback : ∀ a k, Joined s1.net a k → Joined s.net a k ∨ (k = n ∧
        ∃ p, InRng r.bounds p ∧ DAt s.trk s.cur.drv r.sym p (some a)) := by
      intro a k h
      rcases (k4 a k).1 h with h | ⟨d, hd, rfl, rfl⟩
      · exact .inl h
      · obtain ⟨g1, g2⟩ := hsrc d hd
        exact .inr ⟨g1, g2⟩
    rw [h1]
    simp only [k1]
    cases fin with
    | true =>
      obtain ⟨e, he, g1, g2⟩ := h4 rfl
      have hall : ∀ p, InRng r.bounds p → Covers m.ivls p := by
        intro p hp
        rw [inRng_iff] at hp
        exact ⟨e, (hes e he).1, by omega, by omega⟩
      refine ⟨s1, [], by simp, k2, by simp [k3], by simp, by simp, ?_, hjoin, ?_, ?_⟩
      · intro p hp h; exact absurd (hall p hp) ((hcov p).1 h)
      · intro p hp h; exact absurd (hall p hp) ((hcov p).1 h)
      · intro a k h
        rcases hback a k h with h | ⟨h, h'⟩
        · exact .inl h
        · exact .inr ⟨h, .inl h'⟩
    | false =>
      obtain ⟨rest, hd, hrest⟩ := difference_characterised
        (first := [(⟨r.bounds.lower, r.bounds.upper, ()⟩ : Ivl Unit)]) (second := m.ivls)
        ⟨by simpa using hbl, by simp⟩ hI.ok (fun e he => (hI.bnd e he).2)
      obtain ⟨s2, a1, a2, a3, a4⟩ := addRvalues_ok r rest s1 (k2.ok hok) (n := n) (k2.nodes ▸ hnn)
      simp only [Bool.false_eq_true, if_false, hd, a1]
      have hun : ∀ p, InRng r.bounds p → (∀ d, ¬ DAt s.trk s.cur.drv r.sym p d) → At rest p () := by
        intro p hp h
        rw [inRng_iff] at hp
        exact (hrest p ()).2 ⟨_, List.mem_singleton_self _, rfl, hp.1, hp.2, .inl ((hcov p).1 h)⟩
      by_cases hk : c.D.kind r.sym = .modportPort
      · obtain ⟨b1, b2⟩ := a4 hk
        refine ⟨s2, [], rfl, k2.trans a2, by simp [b1, k3], by simp, by simp,
          fun p _ _ h => absurd hk h, fun p k hp hd => a2.net.join _ _ (hjoin p k hp hd), ?_, ?_⟩
        · intro p hp h _ a ha
          obtain ⟨x, hx, _⟩ := hun p hp h
          exact (b2 a n).2 (.inr ⟨List.ne_nil_of_mem hx, ha, rfl⟩)
        · intro a k h
          rcases (b2 a k).1 h with h | ⟨_, h, h'⟩
          · rcases hback a k h with h | ⟨h, h'⟩
            · exact .inl h
            · exact .inr ⟨h, .inl h'⟩
          · exact .inr ⟨h', .inr ⟨hk, h⟩⟩
      · obtain ⟨b1, b2⟩ := a3 hk
        refine ⟨s2, _, rfl, k2.trans a2, by rw [b2, k3], ?_, ?_, ?_,
          fun p k hp hd => b1 ▸ hjoin p k hp hd, fun p _ _ h => absurd h hk, ?_⟩
        · intro x hx
          obtain ⟨e, _, rfl⟩ := List.mem_map.1 hx
          exact ⟨rfl, rfl, rfl, hk⟩
        · intro x hx p hp
          obtain ⟨e, he, rfl⟩ := List.mem_map.1 hx
          have hne : e.lo ≤ e.hi := (difference_wf (first :=
            [(⟨r.bounds.lower, r.bounds.upper, ()⟩ : Ivl Unit)]) (by simpa using hbl) hd) e he
          have hat : At rest p () := by
            rw [inRng_iff] at hp
            simp only [BitRange.lower, BitRange.upper] at hp
            exact ⟨e, he, by omega, by omega, rfl⟩
          obtain ⟨e', he', _, g1, g2, g3⟩ := (hrest p ()).1 hat
          simp only [List.mem_singleton] at he'
          subst he'
          refine ⟨by rw [inRng_iff]; exact ⟨g1, g2⟩, ?_⟩
          rcases g3 with g3 | g3
          · exact .inl ((hcov p).2 g3)
          · exact .inr g3.1
        · intro p hp h _
          obtain ⟨x, hx, g1, g2, _⟩ := hun p hp h
          refine ⟨_, List.mem_map.2 ⟨x, hx, rfl⟩, ?_⟩
          rw [inRng_iff]
          simp only [BitRange.lower, BitRange.upper]
          omega
        · intro a k h
          rw [b1] at h
          rcases hback a k h with h | ⟨h, h'⟩
          · exact .inl h
          · exact .inr ⟨h, .inl h'⟩

theorem lastAt_cons {b : Bool} {w : Wr} {ws : List Wr} {y : Nat} {p : Int} {loc : TextLoc} :
    LastAt b (w :: ws) y p loc ↔
      LastAt b ws y p loc ∨ ((∀ v ∈ ws, ¬ Hits b y p v) ∧ Hits b y p w ∧ w.loc = loc) := by
  constructor
  · rintro ⟨pre, v, post, heq, hv, hl, hp⟩
    cases pre with
    | nil =>
      simp only [List.nil_append, List.cons.injEq] at heq
      obtain ⟨rfl, rfl⟩ := heq
      exact .inr ⟨hp, hv, hl⟩
    | cons x pre =>
      simp only [List.cons_append, List.cons.injEq] at heq
      obtain ⟨_, rfl⟩ := heq
      exact .inl ⟨pre, v, post, rfl, hv, hl, hp⟩
  · rintro (⟨pre, v, post, rfl, hv, hl, hp⟩ | ⟨h1, h2, h3⟩)
    · exact ⟨w :: pre, v, post, rfl, hv, hl, hp⟩
    · exact ⟨[], w, ws, rfl, h2, h3, h1⟩

theorem lastAt_hits {b : Bool} {ws : List Wr} {y : Nat} {p : Int} {loc : TextLoc}
    (h : LastAt b ws y p loc) : ∃ v ∈ ws, Hits b y p v := by
  obtain ⟨pre, v, post, rfl, hv, _⟩ := h
  exact ⟨v, by simp, hv⟩

theorem nbaWr_isAssign {net : NetGraph} {x : PendL} {v : Wr} (h : nbaWr net x = some v)
    {loc : TextLoc} (hl : IsAssign net x.node loc) : v = ⟨x.sym, x.bounds, loc, false⟩ := by
  obtain ⟨n, _, h1, h2⟩ := hl
  simp only [nbaWr, h1, h2, Option.some.injEq] at h
  exact h.symm

/-- The pending writes are recorded in order. -/
theorem processNba_at {c : DfaCtx} {W : List Wr} (hW : Plain W) (ws : List PendL) :
    ∀ (s : Dfa) (vs : List Wr), Ok c W s →
    (∀ w ∈ ws, (∃ loc, IsAssign s.net w.node loc) ∧ ∃ v ∈ W, v.sym = w.sym ∧ v.bounds = w.bounds) →
    ws.map (nbaWr s.net) = vs.map some →
    ∃ s', s.processNba ws = .ok s' ∧ Ok c W s' ∧ s'.net = s.net ∧ s'.queue = s.queue ∧
      ∀ y p loc, (∃ d, DAt s'.trk s'.cur.drv y p d ∧ IsAssign s'.net d loc) ↔
        LastAt false vs y p loc ∨ ((∀ v ∈ vs, ¬ Hits false y p v) ∧
          ∃ d, DAt s.trk s.cur.drv y p d ∧ IsAssign s.net d loc) := by
  induction ws with
  | nil =>
    intro s vs hok _ hv
    have : vs = [] := by simpa using hv.symm
    subst this
    refine ⟨_, rfl, ⟨hok.net, hok.trk, hok.flow, hok.vars, hok.ext, by simp⟩, rfl, rfl, ?_⟩
    intro y p loc
    constructor
    · intro h; exact .inr ⟨by simp, h⟩
    · rintro (h | h)
      · obtain ⟨v, hv, _⟩ := lastAt_hits h; cases hv
      · exact h.2
  | cons w ws ih =>
    intro s vs hok hws hv
    cases vs with
    | nil => simp at hv
    | cons v vs =>
      simp only [List.map_cons, List.cons.injEq] at hv
      obtain ⟨hv1, hv2⟩ := hv
      obtain ⟨⟨loc, hl⟩, u, hu, hu1, hu2⟩ := hws w List.mem_cons_self
      have hveq := nbaWr_isAssign hv1 hl
      obtain ⟨drv', h1, h2, h3, h4⟩ := addDrivers_at hW hok.trk hok.flow.drv
        (sym := w.sym) (b := w.bounds) (hu1 ▸ hu2 ▸ fits_write hu) [⟨w.node, w.lsp⟩]
        ⟨_, _, List.mem_singleton_self _, rfl⟩ false
      obtain ⟨ht', hle, _⟩ := slotFor_ok hok.trk w.sym
      have hN : ∀ d, HasN [⟨w.node, w.lsp⟩] d ↔ d = w.node := by
        intro d; simp [HasN, eq_comm]
      have hat : ∀ y p d, DAt (s.trk.slotFor w.sym).1 drv' y p d ↔
          (y = w.sym ∧ InRng w.bounds p ∧ d = w.node) ∨
          (DAt s.trk s.cur.drv y p d ∧ ¬ (y = w.sym ∧ InRng w.bounds p)) := by
        intro y p d
        by_cases hy : y = w.sym
        · subst hy
          rw [h3, hN, inRng_iff]
          simp [and_assoc]
        · rw [h4 y p d hy]
          simp [hy]
      have hok1 : Ok c W
          ({ s with trk := (s.trk.slotFor w.sym).1, cur := { s.cur with drv := drv' } } : Dfa) := by
        refine ⟨hok.net, ht', ⟨h2, ?_, hok.flow.node, hok.flow.cond⟩, hok.vars, hok.ext, hok.nba⟩
        intro y p d hd
        rcases (hat y p d).1 hd with ⟨_, _, rfl⟩ | ⟨h, _⟩
        · exact ⟨loc, hl⟩
        · exact hok.flow.assign y p d h
      obtain ⟨s', g1, g2, g3, g4, g5⟩ := ih _ vs hok1
        (fun x hx => hws x (List.mem_cons_of_mem _ hx)) hv2
      refine ⟨s', by simp only [Dfa.processNba, h1, g1], g2, g3, g4, ?_⟩
      intro y p l
      rw [g5, lastAt_cons]
      have hH : Hits false y p v ↔ y = w.sym ∧ InRng w.bounds p := by
        rw [hveq]; simp [Hits, eq_comm]
      simp only [hat]
      constructor
      · rintro (h | ⟨h, d, ⟨e1, e2, rfl⟩ | ⟨e1, e2⟩, hd⟩)
        · exact .inl (.inl h)
        · have := isAssign_unique hl hd
          exact .inl (.inr ⟨h, hH.2 ⟨e1, e2⟩, by rw [hveq]; exact this⟩)
        · refine .inr ⟨?_, d, e1, hd⟩
          intro x hx
          rcases List.mem_cons.1 hx with rfl | hx
          · exact fun hh => e2 (hH.1 hh)
          · exact h x hx
      · rintro ((h | ⟨h, h', h''⟩) | ⟨h, d, e1, hd⟩)
        · exact .inl h
        · obtain ⟨e1, e2⟩ := hH.1 h'
          refine .inr ⟨h, w.node, .inl ⟨e1, e2, rfl⟩, ?_⟩
          rw [hveq] at h''
          exact h'' ▸ hl
        · exact .inr ⟨fun x hx => h x (List.mem_cons_of_mem _ hx), d,
            .inr ⟨e1, fun hh => h v List.mem_cons_self (hH.2 hh)⟩, hd⟩

end Verif.Proofs

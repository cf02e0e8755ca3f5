import Verif.Proofs.Operand

/-! Helper lemmas for Phase 1: what one port connection does to the builder. -/
namespace Verif.Proofs
open Verif.Spec Verif.Model Verif.Props

/-- The port node chosen depends on the port's nodes only. -/
theorem portNodeFor_same {s s' : Bld} {pp : Nat} (hv : s'.vars pp = s.vars pp)
    (hd : ∀ e ∈ s.vars pp, s'.net.data e.val = s.net.data e.val) (b : BitRange) :
    portNodeFor s' pp b = portNodeFor s pp b := by
  unfold portNodeFor VarTab.lookup VarTab.lookupAll
  rw [hv]
  split
  · rfl
  · rename_i h
    generalize hl : s.vars pp = l at hd
    clear h hl hv
    induction l with
    | nil => rfl
    | cons a l ih =>
      simp only [List.map_cons, List.find?_cons]
      rw [hd a List.mem_cons_self, ih fun e he => hd e (List.mem_cons_of_mem _ he)]

/-- The effect of wiring nodes: `R` are the reads `(symbol, range, node)` requested, `W` the
recordings of nodes as drivers; constants are made only if `K`, for nodes in `T`. -/
structure Eff (E : TravEnv) (K : Prop) (T : Nat → Prop) (R W : Nat → BitRange → Nat → Prop) (c c' : Col) : Prop where
  fine : Fine E.D c'
  grew : Grew (fun d => K ∧ ∃ v w, d = .constant v w {}) (fun _ => False) c c'
  cuts : c'.cuts = c.cuts
  boxes : c'.boxes = c.boxes
  blocks : c'.blocks = c.blocks
  queue : ∀ x, x ∈ c'.b.queue ↔ x ∈ c.b.queue ∨ ∃ y b n, R y b n ∧ E.D.kind y ≠ .modportPort ∧
    x = ⟨y, b, some n, .none⟩
  hist : ∃ h, c'.hist = c.hist ++ h ∧
    (∀ r ∈ h, r.2.merge = true ∧ ∃ n lsp, r.2.drivers = [⟨some n, lsp⟩] ∧ W r.1 r.2.bounds n) ∧
    ∀ y b n, W y b n → ∃ r ∈ h, r.1 = y ∧ r.2.bounds = b ∧ ∃ lsp, r.2.drivers = [⟨some n, lsp⟩]
  hook : ∀ y b n, W y b n → ∀ pp pn, E.D.port y = some pp → portNodeFor c.b pp b = some pn →
    Joined c'.b.net n pn
  modport : ∀ y b n, R y b n → E.D.kind y = .modportPort → ∃ lsp, ∀ v ∈ E.D.iface y lsp, ∀ m,
    c.b.vars.lookup v.1 v.2 = some m → Joined c'.b.net m n
  edges : ∀ s t, Joined c'.b.net s t → Joined c.b.net s t ∨
    (∃ y b pp, W y b s ∧ E.D.port y = some pp ∧ portNodeFor c.b pp b = some t) ∨
    (∃ y b lsp v, R y b t ∧ E.D.kind y = .modportPort ∧ v ∈ E.D.iface y lsp ∧
      c.b.vars.lookup v.1 v.2 = some s) ∨
    (K ∧ ∃ v w, c'.b.net.data s = .constant v w {})
  just : ∀ J, Just J c.b.net →
    (∀ y b n, W y b n → n ∈ c'.b.net.g.nodes → ∀ pp pn, E.D.port y = some pp → portNodeFor c.b pp b = some pn →
      ∀ i, InRng b i → J (.bit ((E.D.ref y).path, i)) (c'.b.net.data n) (c'.b.net.data pn)) →
    (∀ y b n, R y b n → n ∈ c'.b.net.g.nodes → E.D.kind y = .modportPort → ∀ lsp, ∀ v ∈ E.D.iface y lsp, ∀ m,
      c.b.vars.lookup v.1 v.2 = some m →
      ∀ i, InRng b i → J (.bit ((E.D.ref y).path, i)) (c'.b.net.data m) (c'.b.net.data n)) →
    (K → ∀ n, T n → n ∈ c'.b.net.g.nodes → ∀ v w, J .plain (.constant v w {}) (c'.b.net.data n)) → Just J c'.b.net

theorem joined_nodes {net : NetGraph} (hr : Reachable net) {s t : Nat} (h : Joined net s t) :
    s ∈ net.g.nodes ∧ t ∈ net.g.nodes := by
  obtain ⟨e, he, rfl⟩ := h
  exact ((reachable_wf hr).out s e he).2

theorem Fine.lookup {D : Design} {c : Col} (h : Fine D c) {x : Nat} {b : BitRange} {n : Nat}
    (hl : c.b.vars.lookup x b = some n) : n ∈ c.b.net.g.nodes := by
  obtain ⟨e, he, rfl, _⟩ := varLookup_mem hl
  exact (h.ok.vars x e he).1

theorem Grew.portNodeFor {M : NodeData → Prop} {D : Design} {c c' : Col} (hc : Fine D c)
    (h : Grew M (fun _ => False) c c') (pp : Nat) (b : BitRange) :
    portNodeFor c'.b pp b = portNodeFor c.b pp b :=
  portNodeFor_same (h.fixed pp id) (fun e he => h.net.data _ (hc.ok.vars pp e he).1) b

theorem Eff.nil {E : TravEnv} {K : Prop} {T : Nat → Prop} {c : Col} (h : Fine E.D c) :
    Eff E K T (fun _ _ _ => False) (fun _ _ _ => False) c c :=
  ⟨h, Grew.refl _ _ _, rfl, rfl, rfl, by simp, ⟨[], by simp, by simp, by simp⟩, by simp, by simp,
    fun _ _ h => .inl h, fun _ h _ _ _ => h⟩

theorem Eff.trans {E : TravEnv} {K : Prop} {T : Nat → Prop} {R1 W1 R2 W2 R W : Nat → BitRange → Nat → Prop} {a b c : Col}
    (ha : Fine E.D a) (h : Eff E K T R1 W1 a b) (k : Eff E K T R2 W2 b c)
    (hR : ∀ y r n, R y r n ↔ R1 y r n ∨ R2 y r n) (hW : ∀ y r n, W y r n ↔ W1 y r n ∨ W2 y r n) :
    Eff E K T R W a c := by
  have hvars : b.b.vars = a.b.vars := funext fun y => h.grew.fixed y id
  refine ⟨k.fine, (h.grew.trans k.grew).weaken (fun d h => h.elim id id) (fun y h => h.elim id id),
    k.cuts.trans h.cuts, k.boxes.trans h.boxes, k.blocks.trans h.blocks, ?_, ?_, ?_, ?_, ?_, ?_⟩
  · intro x
    rw [k.queue, h.queue]
    constructor
    · rintro ((h1 | ⟨y, r, n, h1, h2⟩) | ⟨y, r, n, h1, h2⟩)
      · exact .inl h1
      · exact .inr ⟨y, r, n, (hR ..).2 (.inl h1), h2⟩
      · exact .inr ⟨y, r, n, (hR ..).2 (.inr h1), h2⟩
    · rintro (h1 | ⟨y, r, n, h1, h2⟩)
      · exact .inl (.inl h1)
      · rcases (hR ..).1 h1 with h1 | h1
        · exact .inl (.inr ⟨y, r, n, h1, h2⟩)
        · exact .inr ⟨y, r, n, h1, h2⟩
  · obtain ⟨l1, a1, a2, a3⟩ := h.hist
    obtain ⟨l2, b1, b2, b3⟩ := k.hist
    refine ⟨l1 ++ l2, by rw [b1, a1]; simp, ?_, ?_⟩
    · intro r hr
      rcases List.mem_append.1 hr with hr | hr
      · obtain ⟨g1, n, lsp, g2, g3⟩ := a2 r hr
        exact ⟨g1, n, lsp, g2, (hW ..).2 (.inl g3)⟩
      · obtain ⟨g1, n, lsp, g2, g3⟩ := b2 r hr
        exact ⟨g1, n, lsp, g2, (hW ..).2 (.inr g3)⟩
    · intro y r n hw
      rcases (hW ..).1 hw with hw | hw
      · obtain ⟨x, hx, g⟩ := a3 y r n hw
        exact ⟨x, List.mem_append_left _ hx, g⟩
      · obtain ⟨x, hx, g⟩ := b3 y r n hw
        exact ⟨x, List.mem_append_right _ hx, g⟩
  · intro y r n hw pp pn h1 h2
    rcases (hW ..).1 hw with hw | hw
    · exact k.grew.net.join _ _ (h.hook y r n hw pp pn h1 h2)
    · exact k.hook y r n hw pp pn h1 (by rw [h.grew.portNodeFor ha]; exact h2)
  · intro y r n hr h1
    rcases (hR ..).1 hr with hr | hr
    · obtain ⟨lsp, h2⟩ := h.modport y r n hr h1
      exact ⟨lsp, fun v hv m hm => k.grew.net.join _ _ (h2 v hv m hm)⟩
    · obtain ⟨lsp, h2⟩ := k.modport y r n hr h1
      exact ⟨lsp, fun v hv m hm => h2 v hv m (by rw [hvars]; exact hm)⟩
  · intro s t hj
    rcases k.edges s t hj with hj | ⟨y, r, pp, h1, h2, h3⟩ | ⟨y, r, lsp, v, h1, h2, h3, h4⟩ | h1
    · rcases h.edges s t hj with hj' | ⟨y, r, pp, h1, h2, h3⟩ | ⟨y, r, lsp, v, h1, h2, h3, h4⟩ | ⟨h1, v, w, h2⟩
      · exact .inl hj'
      · exact .inr (.inl ⟨y, r, pp, (hW ..).2 (.inl h1), h2, h3⟩)
      · exact .inr (.inr (.inl ⟨y, r, lsp, v, (hR ..).2 (.inl h1), h2, h3, h4⟩))
      · refine .inr (.inr (.inr ⟨h1, v, w, ?_⟩))
        have hs : s ∈ b.b.net.g.nodes := by
          have := (joined_nodes h.fine.ok.reach hj).1
          exact this
        rw [k.grew.net.data s hs]; exact h2
    · exact .inr (.inl ⟨y, r, pp, (hW ..).2 (.inr h1), h2, by rw [← h.grew.portNodeFor ha]; exact h3⟩)
    · exact .inr (.inr (.inl ⟨y, r, lsp, v, (hR ..).2 (.inr h1), h2, h3, by rw [← hvars]; exact h4⟩))
    · exact .inr (.inr (.inr h1))
  · intro J hJ jW jR jT
    refine k.just J (h.just J hJ ?_ ?_ ?_) ?_ ?_ jT
    · intro y r n hw hn pp pn h1 h2 i hi
      obtain ⟨e, he, h3⟩ := portNodeFor_mem h2
      have hp : pn ∈ a.b.net.g.nodes := h3 ▸ (ha.ok.vars pp e he).1
      have := jW y r n ((hW ..).2 (.inl hw)) (k.grew.net.nodes n hn) pp pn h1 h2 i hi
      rwa [k.grew.net.data n hn, k.grew.net.data pn (h.grew.net.nodes pn hp)] at this
    · intro y r n hr hn hk lsp v hv m hm i hi
      have := jR y r n ((hR ..).2 (.inl hr)) (k.grew.net.nodes n hn) hk lsp v hv m hm i hi
      rwa [k.grew.net.data n hn, k.grew.net.data m (h.grew.net.nodes m (ha.lookup hm))] at this
    · intro hK n hT hn v w
      have := jT hK n hT (k.grew.net.nodes n hn) v w
      rwa [k.grew.net.data n hn] at this
    · intro y r n hw hn pp pn h1 h2
      exact jW y r n ((hW ..).2 (.inr hw)) hn pp pn h1 (by rw [← h.grew.portNodeFor ha]; exact h2)
    · intro y r n hr hn hk lsp v hv m hm
      exact jR y r n ((hR ..).2 (.inr hr)) hn hk lsp v hv m (by rw [← hvars]; exact hm)

theorem Eff.congr {E : TravEnv} {K : Prop} {T : Nat → Prop} {R1 W1 R W : Nat → BitRange → Nat → Prop} {a b : Col}
    (ha : Fine E.D a) (h : Eff E K T R1 W1 a b) (hR : ∀ y r n, R y r n ↔ R1 y r n)
    (hW : ∀ y r n, W y r n ↔ W1 y r n) : Eff E K T R W a b :=
  h.trans ha (Eff.nil h.fine) (by simp [hR]) (by simp [hW])

/-! ### Edges and constants -/

/-- Adding dependencies between existing nodes. -/
theorem colDeps_ok {D : Design} {c : Col} (hc : Fine D c) {ds : List Dep}
    (hn : ∀ d ∈ ds, d.src ∈ c.b.net.g.nodes ∧ d.tgt ∈ c.b.net.g.nodes) :
    ∃ net', c.addDeps ds = .ok { c with b := { c.b with net := net' } } ∧
      Fine D { c with b := { c.b with net := net' } } ∧ NetLe c.b.net net' ∧
      net'.g.nodes = c.b.net.g.nodes ∧ net'.data = c.b.net.data ∧
      (∀ s t, Joined net' s t ↔ Joined c.b.net s t ∨ ∃ d ∈ ds, d.src = s ∧ d.tgt = t) ∧
      ∀ J, Just J c.b.net → (∀ d ∈ ds, DepJust J c.b.net d) → Just J net' := by
  obtain ⟨net', a1, a2, a3, a4, a5, a6⟩ := deps_le hc.ok.reach hn
  refine ⟨net', by simp only [Col.addDeps, Bld.addDeps, a1], ⟨⟨a2, ?_, ?_⟩, ?_, hc.cuts, hc.rng⟩, a3, a4, a5, a6,
    fun J hJ hd => (just_deps ds hc.ok.reach hJ hd a1).2.1⟩
  · intro y e he
    dsimp only
    rw [a4, a5]; exact hc.ok.vars y e he
  · intro x hx n hn; exact a3.nodes n (hc.ok.pend x hx n hn)
  · intro x hx
    dsimp only
    rw [a4]; exact hc.hist x hx

theorem grew_net {M : NodeData → Prop} {S : Nat → Prop} {c : Col} {net' : NetGraph} (hl : NetLe c.b.net net')
    (hn : net'.g.nodes = c.b.net.g.nodes) {q : List Pending} {h : List (Nat × Rec)} :
    Grew M S c { c with b := { c.b with net := net', queue := c.b.queue ++ q }, hist := c.hist ++ h } :=
  ⟨hl, fun n h => .inl (hn ▸ h), fun _ _ h => h, fun _ _ => rfl, ⟨q, rfl⟩, ⟨h, rfl⟩,
    fun _ l hl => ⟨l, hl, fun _ h => h⟩, fun _ _ h => .inl h⟩

theorem rvalue_ok {E : TravEnv} {K : Prop} {T : Nat → Prop} {c : Col} (hc : Fine E.D c) (y lsp : Nat) (b : BitRange) {n : Nat}
    (hn : n ∈ c.b.net.g.nodes) : ∃ c', c.rvalue E y lsp b n = .ok c' ∧
      Eff E K T (fun y' b' n' => y' = y ∧ b' = b ∧ n' = n) (fun _ _ _ => False) c c' := by
  by_cases hk : E.D.kind y = .modportPort
  · have hdeps : ∀ d ∈ modportDeps ⟨E.D, c.b.vars, none⟩ ⟨y, b, lsp, false⟩ b n,
        d.tgt = n ∧ (∃ v ∈ E.D.iface y lsp, c.b.vars.lookup v.1 v.2 = some d.src) ∧
          d.sym = some (E.D.ref y) ∧ d.bounds = b ∧ d.kind = .none := by
      intro d hd
      unfold modportDeps at hd
      obtain ⟨v, hv, h⟩ := List.mem_filterMap.1 hd
      obtain ⟨m, hm, rfl⟩ := Option.map_eq_some_iff.1 h
      exact ⟨rfl, ⟨v, hv, hm⟩, rfl, rfl, rfl⟩
    obtain ⟨net', a1, a2, a3, a4, a5, a6, a7⟩ := colDeps_ok hc (ds := modportDeps ⟨E.D, c.b.vars, none⟩ ⟨y, b, lsp, false⟩ b n)
      (fun d hd => by
        obtain ⟨h1, ⟨v, _, h2⟩, _⟩ := hdeps d hd
        exact ⟨hc.lookup h2, h1 ▸ hn⟩)
    refine ⟨{ c with b := { c.b with net := net' } }, by simp only [Col.rvalue, hk, a1], a2, ?_, rfl, rfl, rfl, ?_,
      ⟨[], by simp, by simp, by simp⟩, by simp, ?_, ?_, ?_⟩
    · have := grew_net (M := fun d => K ∧ ∃ v w, d = .constant v w {}) (S := fun _ => False) a3 a4 (q := []) (h := [])
      simpa using this
    · intro x
      constructor
      · exact .inl
      · rintro (h | ⟨y', b', n', ⟨rfl, rfl, rfl⟩, h, _⟩)
        · exact h
        · exact absurd hk h
    · rintro y' b' n' ⟨rfl, rfl, rfl⟩ _
      refine ⟨lsp, fun v hv m hm => (a6 _ _).2 (.inr ⟨⟨m, n', some (E.D.ref y'), b', .none⟩, ?_, rfl, rfl⟩)⟩
      unfold modportDeps
      exact List.mem_filterMap.2 ⟨v, hv, by simp [hm]⟩
    · intro s t hj
      rcases (a6 _ _).1 hj with hj | ⟨d, hd, rfl, rfl⟩
      · exact .inl hj
      · obtain ⟨h1, ⟨v, hv, h2⟩, _⟩ := hdeps d hd
        exact .inr (.inr (.inl ⟨y, b, lsp, v, ⟨rfl, rfl, h1⟩, hk, hv, h2⟩))
    · intro J hJ _ jR _
      refine a7 J hJ fun d hd => ?_
      obtain ⟨h1, ⟨v, hv, h2⟩, h3, h4, h5⟩ := hdeps d hd
      refine ⟨_, h3, fun h => absurd h5 h, fun i hi => ?_⟩
      have := jR y b n ⟨rfl, rfl, rfl⟩ (by dsimp only; rw [a4]; exact hn) hk lsp v hv _ h2 i (h4 ▸ inRng_dep hi)
      dsimp only at this
      rw [a5] at this
      rw [h1]; exact this
  · refine ⟨{ c with b := { c.b with queue := c.b.queue ++ [⟨y, b, some n, .none⟩] } }, ?_, ?_, ?_, rfl, rfl, rfl, ?_,
      ⟨[], by simp, by simp, by simp⟩, by simp, ?_, fun _ _ h => .inl h,
      fun _ h _ _ _ => h⟩
    · unfold Col.rvalue
      split
      · rename_i h; exact absurd h hk
      · rfl
    · refine ⟨⟨hc.ok.reach, hc.ok.vars, ?_⟩, hc.hist, hc.cuts, hc.rng⟩
      intro x hx m hm
      rcases List.mem_append.1 hx with hx | hx
      · exact hc.ok.pend x hx m hm
      · rw [List.mem_singleton] at hx; subst hx; cases hm; exact hn
    · have := grew_net (M := fun d => K ∧ ∃ v w, d = .constant v w {}) (S := fun _ => False) (NetLe.refl c.b.net) rfl
        (q := [⟨y, b, some n, .none⟩]) (h := [])
      simpa using this
    · intro x
      rw [List.mem_append, List.mem_singleton]
      constructor
      · rintro (h | rfl)
        · exact .inl h
        · exact .inr ⟨y, b, n, ⟨rfl, rfl, rfl⟩, hk, rfl⟩
      · rintro (h | ⟨y', b', n', ⟨rfl, rfl, rfl⟩, _, rfl⟩)
        · exact .inl h
        · exact .inr rfl
    · rintro y' b' n' ⟨rfl, _, _⟩ h; exact absurd h hk

theorem lvalue_ok {E : TravEnv} {K : Prop} {T : Nat → Prop} {c : Col} (hc : Fine E.D c) (y lsp : Nat) (b : BitRange) {n : Nat}
    (hn : n ∈ c.b.net.g.nodes) : ∃ c', c.lvalue E y lsp b n = .ok c' ∧
      Eff E K T (fun _ _ _ => False) (fun y' b' n' => y' = y ∧ b' = b ∧ n' = n) c c' := by
  have hc1 : Fine E.D { c with hist := c.hist ++ [(y, ⟨b, [⟨some n, lsp⟩], true⟩)] } := by
    refine ⟨hc.ok, ?_, hc.cuts, hc.rng⟩
    intro x hx
    rcases List.mem_append.1 hx with hx | hx
    · exact hc.hist x hx
    · rw [List.mem_singleton] at hx; subst hx
      refine ⟨by simp, fun d hd => ?_⟩
      rw [List.mem_singleton] at hd; subst hd
      exact ⟨n, hn, rfl⟩
  have hdeps : ∀ d ∈ hookupDeps E.D c.b y b [⟨some n, 0⟩], d.src = n ∧
      (∃ pp, E.D.port y = some pp ∧ portNodeFor c.b pp b = some d.tgt) ∧
        d.sym = some (E.D.ref y) ∧ d.bounds = b ∧ d.kind = .none := by
    intro d hd
    unfold hookupDeps at hd
    split at hd
    · cases hd
    · rename_i pp hp
      split at hd
      · cases hd
      · rename_i pn hpn
        obtain ⟨x, hx, h1, h2, h3, h4, h5⟩ := mem_driverDeps.1 hd
        rw [List.mem_singleton] at hx; subst hx
        cases h1
        exact ⟨rfl, ⟨pp, hp, by rw [hpn, h2]⟩, h3, h4, h5⟩
  obtain ⟨net', a1, a2, a3, a4, a5, a6, a7⟩ := colDeps_ok hc1 (ds := hookupDeps E.D c.b y b [⟨some n, 0⟩])
    (fun d hd => by
      obtain ⟨h1, ⟨pp, _, h2⟩, _⟩ := hdeps d hd
      obtain ⟨e, he, h3⟩ := portNodeFor_mem h2
      exact ⟨h1 ▸ hn, h3 ▸ (hc.ok.vars pp e he).1⟩)
  refine ⟨_, by simp only [Col.lvalue, a1], a2, ?_, rfl, rfl, rfl, by simp,
    ⟨[(y, ⟨b, [⟨some n, lsp⟩], true⟩)], rfl, ?_, ?_⟩, ?_, by simp, ?_, ?_⟩
  · have := grew_net (M := fun d => K ∧ ∃ v w, d = .constant v w {}) (S := fun _ => False) (c := c) a3 a4 (q := [])
      (h := [(y, ⟨b, [⟨some n, lsp⟩], true⟩)])
    simpa using this
  · intro r hr
    rw [List.mem_singleton] at hr; subst hr
    exact ⟨rfl, n, lsp, rfl, rfl, rfl, rfl⟩
  · rintro y' b' n' ⟨rfl, rfl, rfl⟩
    exact ⟨_, List.mem_singleton.2 rfl, rfl, rfl, lsp, rfl⟩
  · rintro y' b' n' ⟨rfl, rfl, rfl⟩ pp pn h1 h2
    refine (a6 _ _).2 (.inr ⟨⟨n', pn, some (E.D.ref y'), b', .none⟩, ?_, rfl, rfl⟩)
    simp only [hookupDeps, h1, h2, driverDeps]
    simp
  · intro s t hj
    rcases (a6 _ _).1 hj with hj | ⟨d, hd, rfl, rfl⟩
    · exact .inl hj
    · obtain ⟨h1, ⟨pp, h2, h3⟩, _⟩ := hdeps d hd
      exact .inr (.inl ⟨y, b, pp, ⟨rfl, rfl, h1⟩, h2, h3⟩)
  · intro J hJ jW _ _
    refine a7 J hJ fun d hd => ?_
    obtain ⟨h1, ⟨pp, h2, h3⟩, h4, h5, h6⟩ := hdeps d hd
    refine ⟨_, h4, fun h => absurd h6 h, fun i hi => ?_⟩
    have := jW y b n ⟨rfl, rfl, rfl⟩ (by dsimp only; rw [a4]; exact hn) pp _ h2 h3 i (h5 ▸ inRng_dep hi)
    dsimp only at this
    rw [a5] at this
    rw [h1]; exact this

/-! ### Paths and sources -/

theorem path_ok {E : TravEnv} {K : Prop} {T : Nat → Prop} (output : Bool) (p : LspPath) (b : BitRange) (ns : List Nat) :
    ∀ {c : Col}, Fine E.D c → (∀ n ∈ ns, n ∈ c.b.net.g.nodes) → ∃ c', c.path E output p b ns = .ok c' ∧
      Eff E K T (fun y b' n => output = false ∧ p.root = some y ∧ b' = b ∧ n ∈ ns)
        (fun y b' n => output = true ∧ p.root = some y ∧ b' = b ∧ n ∈ ns) c c' := by
  induction ns with
  | nil => intro c hc _; exact ⟨c, rfl, (Eff.nil hc).congr hc (by simp) (by simp)⟩
  | cons n ns ih =>
    intro c hc hn
    cases hr : p.root with
    | none => exact ⟨c, by simp only [Col.path, hr], (Eff.nil hc).congr hc (by simp) (by simp)⟩
    | some y =>
      have h1 : ∃ c1, (if output then c.lvalue E y (E.lspId p) b n else c.rvalue E y (E.lspId p) b n) = .ok c1 ∧
          Eff E K T (fun y' b' n' => output = false ∧ y' = y ∧ b' = b ∧ n' = n)
            (fun y' b' n' => output = true ∧ y' = y ∧ b' = b ∧ n' = n) c c1 := by
        cases output with
        | true =>
          obtain ⟨c1, a1, a2⟩ := lvalue_ok (K := K) (T := T) hc y (E.lspId p) b (hn n List.mem_cons_self)
          exact ⟨c1, by simp only [if_true]; exact a1, a2.congr hc (by simp) (by simp)⟩
        | false =>
          obtain ⟨c1, a1, a2⟩ := rvalue_ok (K := K) (T := T) hc y (E.lspId p) b (hn n List.mem_cons_self)
          exact ⟨c1, by simp only [Bool.false_eq_true, if_false]; exact a1, a2.congr hc (by simp) (by simp)⟩
      obtain ⟨c1, a1, a2⟩ := h1
      obtain ⟨c2, b1, b2⟩ := ih a2.fine fun m hm => a2.grew.net.nodes _ (hn m (List.mem_cons_of_mem _ hm))
      refine ⟨c2, by simp only [Col.path, hr, a1, b1], a2.trans hc b2 ?_ ?_⟩
      · intro y' b' n'; rw [hr]; simp only [List.mem_cons, Option.some.injEq]; grind
      · intro y' b' n'; rw [hr]; simp only [List.mem_cons, Option.some.injEq]; grind

theorem paths_ok {E : TravEnv} {K : Prop} {T : Nat → Prop} (output : Bool) (ns : List Nat) (ps : List LspPath) :
    ∀ {c : Col}, Fine E.D c → (∀ n ∈ ns, n ∈ c.b.net.g.nodes) → ∃ c', c.paths E output ns ps = .ok c' ∧
      Eff E K T (fun y b n => output = false ∧ n ∈ ns ∧ ∃ p ∈ ps, p.root = some y ∧ b = ⟨p.lo, p.hi⟩)
        (fun y b n => output = true ∧ n ∈ ns ∧ ∃ p ∈ ps, p.root = some y ∧ b = ⟨p.lo, p.hi⟩) c c' := by
  induction ps with
  | nil => intro c hc _; exact ⟨c, rfl, (Eff.nil hc).congr hc (by simp) (by simp)⟩
  | cons p ps ih =>
    intro c hc hn
    obtain ⟨c1, a1, a2⟩ := path_ok (K := K) (T := T) output p ⟨p.lo, p.hi⟩ ns hc hn
    obtain ⟨c2, b1, b2⟩ := ih a2.fine fun m hm => a2.grew.net.nodes _ (hn m hm)
    refine ⟨c2, by simp only [Col.paths, a1, b1], a2.trans hc b2 ?_ ?_⟩
    · intro y b n; simp only [List.mem_cons]; grind
    · intro y b n; simp only [List.mem_cons]; grind

theorem plainDeps_ok {E : TravEnv} {K : Prop} {T : Nat → Prop} (hK : K) {k : Nat} (ns : List Nat) : ∀ {c : Col},
    (∀ n ∈ ns, T n) → Fine E.D c →
    k ∈ c.b.net.g.nodes → (∃ v w, c.b.net.data k = .constant v w {}) → (∀ n ∈ ns, n ∈ c.b.net.g.nodes) →
    ∃ c', c.plainDeps k ns = .ok c' ∧ Eff E K T (fun _ _ _ => False) (fun _ _ _ => False) c c' ∧
      ∀ n ∈ ns, Joined c'.b.net k n := by
  induction ns with
  | nil => intro c _ hc _ _ _; exact ⟨c, rfl, Eff.nil hc, by simp⟩
  | cons n ns ih =>
    intro c hT hc hk hd hn
    obtain ⟨net', a1, a2, a3, a4, a5⟩ := addEdge_le hc.ok.reach hk (hn n List.mem_cons_self)
    have he : Eff E K T (fun _ _ _ => False) (fun _ _ _ => False) c { c with b := { c.b with net := net' } } := by
      refine ⟨⟨⟨a2, ?_, ?_⟩, ?_, hc.cuts, hc.rng⟩, ?_, rfl, rfl, rfl, by simp, ⟨[], by simp, by simp, by simp⟩,
        by simp, by simp, ?_, ?_⟩
      · intro y e he
        obtain ⟨g1, g2⟩ := hc.ok.vars y e he
        exact ⟨a3.nodes _ g1, by dsimp only; rw [a3.data _ g1]; exact g2⟩
      · intro x hx m hm; exact a3.nodes m (hc.ok.pend x hx m hm)
      · intro x hx
        obtain ⟨g1, g2⟩ := hc.hist x hx
        refine ⟨g1, fun d hd => ?_⟩
        obtain ⟨m, g3, g4⟩ := g2 d hd
        exact ⟨m, a3.nodes m g3, g4⟩
      · have := grew_net (M := fun d => K ∧ ∃ v w, d = .constant v w {}) (S := fun _ => False) a3 a4 (q := [])
          (h := [])
        simpa using this
      · intro s t hj
        rcases (a5 _ _).1 hj with hj | ⟨rfl, rfl⟩
        · exact .inl hj
        · refine .inr (.inr (.inr ⟨hK, ?_⟩))
          dsimp only
          rw [a3.data _ hk]; exact hd
      · intro J hJ _ _ jT
        obtain ⟨v, w, hd⟩ := hd
        refine (just_addEdge hc.ok.reach hJ ?_ a1).2.1
        have := jT hK n (hT n List.mem_cons_self) (a3.nodes n (hn n List.mem_cons_self)) v w
        dsimp only at this
        rwa [a3.data n (hn n List.mem_cons_self), ← hd] at this
    obtain ⟨c2, b1, b2, b3⟩ := ih (fun m hm => hT m (List.mem_cons_of_mem _ hm)) he.fine (a3.nodes _ hk) (by dsimp only; rw [a3.data _ hk]; exact hd)
      fun m hm => a3.nodes _ (hn m (List.mem_cons_of_mem _ hm))
    refine ⟨c2, by simp only [Col.plainDeps, a1, b1], he.trans hc b2 (by simp) (by simp), ?_⟩
    intro m hm
    rcases List.mem_cons.1 hm with rfl | hm
    · exact b2.grew.net.join _ _ ((a5 _ _).2 (.inr ⟨rfl, rfl⟩))
    · exact b3 m hm

/-- The source is a selected signal. -/
def IsSig : Src → Prop
  | .lsp .. => True
  | _ => False

/-- The source is a port node. -/
def IsPort : Src → Prop
  | .portNode .. => True
  | _ => False

theorem connSrc_ok {E : TravEnv} {T : Nat → Prop} (output : Bool) (seg : Seg) (ns : List Nat) {x : Src} (hx : ¬ IsPort x)
    {c : Col} (hc : Fine E.D c) (hn : ∀ n ∈ ns, n ∈ c.b.net.g.nodes) (hT : ∀ n ∈ ns, T n) :
    ∃ c', c.connSrc E output seg ns x = .ok c' ∧
      Eff E (output = false) T (fun y b n => n ∈ ns ∧ (y, b) ∈ x.reads seg ∧ ¬ (output = true ∧ IsSig x))
        (fun y b n => n ∈ ns ∧ (y, b) ∈ x.reads seg ∧ output = true ∧ IsSig x) c c' := by
  cases x with
  | lsp p lo hi =>
    obtain ⟨c1, a1, a2⟩ := path_ok (K := output = false) (T := T) output p (lspRange p lo seg) ns hc hn
    refine ⟨c1, a1, a2.congr hc ?_ ?_⟩
    · intro y b n
      simp only [Src.reads, IsSig, List.mem_map, Option.mem_toList, and_true, Prod.mk.injEq]
      cases output <;> grind
    · intro y b n
      simp only [Src.reads, IsSig, List.mem_map, Option.mem_toList, and_true, Prod.mk.injEq]
      cases output <;> grind
  | «opaque» e =>
    obtain ⟨c1, a1, a2⟩ := paths_ok (K := output = false) (T := T) false ns e.paths hc hn
    refine ⟨c1, a1, a2.congr hc ?_ ?_⟩
    · intro y b n
      simp only [Src.reads, IsSig, List.mem_filterMap, Option.map_eq_some_iff, and_false, not_false_eq_true,
        and_true, true_and, Prod.mk.injEq]
      grind
    · intro y b n; simp [IsSig]
  | padding w => exact ⟨c, rfl, (Eff.nil hc).congr hc (by simp [Src.reads]) (by simp [Src.reads])⟩
  | portNode n lo hi => exact absurd trivial hx
  | const v lo hi =>
    cases output with
    | true => exact ⟨c, rfl, (Eff.nil hc).congr hc (by simp [Src.reads]) (by simp [Src.reads])⟩
    | false =>
      obtain ⟨net', a1, a2, a3, a4, a5, a6, a7, _⟩ := addNode_le hc.ok.reach
        (.constant (E.render (constantForSegment v lo seg).1) (constantForSegment v lo seg).2 {})
      have he : Eff E (false = false) T (fun _ _ _ => False) (fun _ _ _ => False) c
          { c with b := { c.b with net := net' } } := by
        refine ⟨⟨⟨a2, ?_, ?_⟩, ?_, hc.cuts, hc.rng⟩, ⟨a3, ?_, fun _ _ h => h, fun _ _ => rfl, ⟨[], by simp⟩,
          ⟨[], by simp⟩, fun _ l hl => ⟨l, hl, fun _ h => h⟩, fun _ _ h => .inl h⟩, rfl, rfl, rfl, by simp,
          ⟨[], by simp, by simp, by simp⟩, by simp, by simp, fun s t h => .inl ((a7 s t).1 h),
          fun J hJ _ _ _ => (just_addNode hc.ok.reach hJ a1).2.1⟩
        · intro y e he
          obtain ⟨g1, g2⟩ := hc.ok.vars y e he
          exact ⟨a3.nodes _ g1, by dsimp only; rw [a3.data _ g1]; exact g2⟩
        · intro x hx m hm; exact a3.nodes m (hc.ok.pend x hx m hm)
        · intro x hx
          obtain ⟨g1, g2⟩ := hc.hist x hx
          refine ⟨g1, fun d hd => ?_⟩
          obtain ⟨m, g3, g4⟩ := g2 d hd
          exact ⟨m, a3.nodes m g3, g4⟩
        · intro n hn
          dsimp only at hn ⊢
          rw [a4] at hn
          rcases List.mem_append.1 hn with hn | hn
          · exact .inl hn
          · rw [List.mem_singleton] at hn; subst hn; exact .inr ⟨rfl, _, _, a6⟩
      obtain ⟨c2, b1, b2, b3⟩ := plainDeps_ok (K := false = false) (T := T) rfl ns hT he.fine (k := c.b.net.g.nextNode)
        (by dsimp only; rw [a4]; simp) ⟨_, _, a6⟩ fun m hm => a3.nodes _ (hn m hm)
      exact ⟨c2, by simp only [Col.connSrc, Bool.false_eq_true, if_false, a1, b1],
        he.trans hc b2 (by simp [Src.reads]) (by simp [Src.reads])⟩

theorem connSrcs_ok {E : TravEnv} {T : Nat → Prop} (output : Bool) (seg : Seg) (ns : List Nat) (xs : List Src) :
    ∀ {c : Col}, Fine E.D c → (∀ n ∈ ns, n ∈ c.b.net.g.nodes) → (∀ n ∈ ns, T n) → (∀ x ∈ xs, ¬ IsPort x) →
    ∃ c', c.connSrcs E output seg ns xs = .ok c' ∧
      Eff E (output = false) T
        (fun y b n => n ∈ ns ∧ ∃ x ∈ xs, (y, b) ∈ x.reads seg ∧ ¬ (output = true ∧ IsSig x))
        (fun y b n => n ∈ ns ∧ ∃ x ∈ xs, (y, b) ∈ x.reads seg ∧ output = true ∧ IsSig x) c c' := by
  induction xs with
  | nil => intro c hc _ _ _; exact ⟨c, rfl, (Eff.nil hc).congr hc (by simp) (by simp)⟩
  | cons x xs ih =>
    intro c hc hn hT hx
    obtain ⟨c1, a1, a2⟩ := connSrc_ok output seg ns (hx x List.mem_cons_self) hc hn hT
    obtain ⟨c2, b1, b2⟩ := ih a2.fine (fun m hm => a2.grew.net.nodes _ (hn m hm)) hT
      fun x hx' => hx x (List.mem_cons_of_mem _ hx')
    refine ⟨c2, by simp only [Col.connSrcs, a1, b1], a2.trans hc b2 ?_ ?_⟩
    · intro y b n; simp only [List.mem_cons]; grind
    · intro y b n; simp only [List.mem_cons]; grind

theorem connSegs_ok {E : TravEnv} {T : Nat → Prop} (output : Bool) (segs : List Seg) :
    ∀ {c : Col}, Fine E.D c → (∀ g ∈ segs, ∀ n ∈ g.portNodes, n ∈ c.b.net.g.nodes) →
    (∀ g ∈ segs, ∀ n ∈ g.portNodes, T n) →
    (∀ g ∈ segs, ∀ x ∈ g.rhs, ¬ IsPort x) →
    ∃ c', c.connSegs E output segs = .ok c' ∧
      Eff E (output = false) T
        (fun y b n => ∃ g ∈ segs, n ∈ g.portNodes ∧ ∃ x ∈ g.rhs, (y, b) ∈ x.reads g ∧
          ¬ (output = true ∧ IsSig x))
        (fun y b n => ∃ g ∈ segs, n ∈ g.portNodes ∧ ∃ x ∈ g.rhs, (y, b) ∈ x.reads g ∧
          output = true ∧ IsSig x) c c' := by
  induction segs with
  | nil => intro c hc _ _ _; exact ⟨c, rfl, (Eff.nil hc).congr hc (by simp) (by simp)⟩
  | cons g gs ih =>
    intro c hc hn hT hx
    obtain ⟨c1, a1, a2⟩ := connSrcs_ok output g g.portNodes g.rhs hc (hn g List.mem_cons_self) (hT g List.mem_cons_self)
      (hx g List.mem_cons_self)
    have h1 : ∃ c1, (if g.portNodes = [] then .ok c else c.connSrcs E output g g.portNodes g.rhs) = .ok c1 ∧
        Eff E (output = false) T
          (fun y b n => n ∈ g.portNodes ∧ ∃ x ∈ g.rhs, (y, b) ∈ x.reads g ∧ ¬ (output = true ∧ IsSig x))
          (fun y b n => n ∈ g.portNodes ∧ ∃ x ∈ g.rhs, (y, b) ∈ x.reads g ∧ output = true ∧ IsSig x) c c1 := by
      by_cases he : g.portNodes = []
      · exact ⟨c, by rw [if_pos he], (Eff.nil hc).congr hc (by simp [he]) (by simp [he])⟩
      · exact ⟨c1, by rw [if_neg he]; exact a1, a2⟩
    obtain ⟨c1, a1, a2⟩ := h1
    obtain ⟨c2, b1, b2⟩ := ih a2.fine (fun g' hg m hm => a2.grew.net.nodes _ (hn g' (List.mem_cons_of_mem _ hg) m hm))
      (fun g' hg => hT g' (List.mem_cons_of_mem _ hg))
      fun g' hg => hx g' (List.mem_cons_of_mem _ hg)
    refine ⟨c2, by simp only [Col.connSegs, a1, b1], a2.trans hc b2 ?_ ?_⟩
    · intro y b n; simp only [List.mem_cons]; grind
    · intro y b n; simp only [List.mem_cons]; grind

/-! ### One connection -/

mutual
theorem orig_noPort : ∀ (e : SExpr) (k : Nat), ∀ o ∈ orig e k, ∀ n f, o ≠ .port n f
  | .lsp w p sels, k, o, ho => by
    simp only [orig, List.mem_singleton] at ho
    subst ho; intro n f h; cases h
  | .concat w ops, k, o, ho => by
    simp only [orig] at ho
    exact orig_noPort_ops ops k o ho
  | .repl w count inner, k, o, ho => by
    simp only [orig] at ho
    split at ho
    · rw [List.mem_singleton] at ho; subst ho; intro n f h; cases h
    · exact orig_noPort inner _ o ho
  | .conv w se fold inner, k, o, ho => by
    simp only [orig] at ho
    split at ho
    · rw [List.mem_singleton] at ho; subst ho; intro n f h; cases h
    · split at ho
      · exact orig_noPort inner _ o ho
      · split at ho
        · split at ho
          · exact orig_noPort inner _ o ho
          · split at ho <;> (rw [List.mem_singleton] at ho; subst ho; intro n f h; cases h)
        · rw [List.mem_singleton] at ho; subst ho; intro n f h; cases h
  | .condOp w nc pat more c l r, k, o, ho => by
    simp only [orig] at ho
    split at ho
    · rw [List.mem_singleton] at ho; subst ho; intro n f h; cases h
    · rcases List.mem_append.1 ho with ho | ho
      · rcases List.mem_append.1 ho with ho | ho
        · exact orig_noPort l _ o ho
        · exact orig_noPort r _ o ho
      · rw [List.mem_singleton] at ho; subst ho; intro n f h; cases h
  | .other w fold reads, k, o, ho => by
    simp only [orig] at ho
    split at ho <;> (rw [List.mem_singleton] at ho; subst ho; intro n f h; cases h)

theorem orig_noPort_ops : ∀ (es : List SExpr) (k : Nat), ∀ o ∈ origOps es k, ∀ n f, o ≠ .port n f
  | [], k, o, ho => by simp [origOps] at ho
  | e :: es, k, o, ho => by
    simp only [origOps] at ho
    split at ho
    · exact orig_noPort_ops es _ o ho
    · exact orig_noPort e _ o ho
end

/-- The paths behind an origin. -/
def Origin.paths : Origin → List LspPath
  | .sig p _ => [p]
  | .opaque e => e.paths
  | _ => []

mutual
theorem orig_paths : ∀ (e : SExpr) (k : Nat), ∀ o ∈ orig e k, ∀ p ∈ Origin.paths o, p ∈ e.paths
  | .lsp w p sels, k, o, ho => by
    simp only [orig, List.mem_singleton] at ho
    subst ho; intro q hq
    simp only [Origin.paths, List.mem_singleton] at hq
    subst hq; simp [SExpr.paths]
  | .concat w ops, k, o, ho => by
    simp only [orig] at ho
    simp only [SExpr.paths]
    exact orig_paths_ops ops k o ho
  | .repl w count inner, k, o, ho => by
    simp only [orig] at ho
    split at ho
    · rw [List.mem_singleton] at ho; subst ho; exact fun _ h => h
    · simp only [SExpr.paths]; exact orig_paths inner _ o ho
  | .conv w se fold inner, k, o, ho => by
    simp only [orig] at ho
    split at ho
    · rw [List.mem_singleton] at ho; subst ho; intro p h; cases h
    · split at ho
      · simp only [SExpr.paths]; exact orig_paths inner _ o ho
      · split at ho
        · split at ho
          · simp only [SExpr.paths]; exact orig_paths inner _ o ho
          · split at ho <;> (rw [List.mem_singleton] at ho; subst ho; intro p h; cases h)
        · rw [List.mem_singleton] at ho; subst ho; exact fun _ h => h
  | .condOp w nc pat more c l r, k, o, ho => by
    simp only [orig] at ho
    split at ho
    · rw [List.mem_singleton] at ho; subst ho; exact fun _ h => h
    · simp only [SExpr.paths, List.mem_append]
      rcases List.mem_append.1 ho with ho | ho
      · rcases List.mem_append.1 ho with ho | ho
        · exact fun p hp => .inl (.inr (orig_paths l _ o ho p hp))
        · exact fun p hp => .inr (orig_paths r _ o ho p hp)
      · rw [List.mem_singleton] at ho; subst ho; exact fun p hp => .inl (.inl (.inl hp))
  | .other w fold reads, k, o, ho => by
    simp only [orig] at ho
    split at ho
    · rw [List.mem_singleton] at ho; subst ho; intro p h; cases h
    · rw [List.mem_singleton] at ho; subst ho; exact fun _ h => h

theorem orig_paths_ops : ∀ (es : List SExpr) (k : Nat), ∀ o ∈ origOps es k, ∀ p ∈ Origin.paths o,
    p ∈ pathsList es
  | [], k, o, ho => by simp [origOps] at ho
  | e :: es, k, o, ho => by
    simp only [origOps] at ho
    simp only [pathsList, List.mem_append]
    split at ho
    · exact fun p hp => .inr (orig_paths_ops es _ o ho p hp)
    · exact fun p hp => .inl (orig_paths e _ o ho p hp)
end

theorem reads_path {ps : List LspPath} {k : Nat} {x : Src} (h : ∀ p ∈ Origin.paths (originAt k x), p ∈ ps) {g : Seg}
    {y : Nat} {b : BitRange} (hr : (y, b) ∈ x.reads g) : ∃ p ∈ ps, p.root = some y := by
  cases x with
  | lsp p lo hi =>
    simp only [Src.reads, List.mem_map, Option.mem_toList, Prod.mk.injEq] at hr
    obtain ⟨z, hz, rfl, _⟩ := hr
    exact ⟨p, h p (by simp [originAt, Origin.paths]), hz⟩
  | «opaque» e =>
    simp only [Src.reads, List.mem_filterMap, Option.map_eq_some_iff, Prod.mk.injEq] at hr
    obtain ⟨p, hp, z, hz, rfl, _⟩ := hr
    exact ⟨p, h p (by simp only [originAt, Origin.paths]; exact hp), hz⟩
  | _ => simp [Src.reads] at hr

theorem walk_srcs {nodes : List PortNd} {W : Nat} {actual : SExpr} (bits integral : Bool)
    (hb : ∀ n ∈ nodes, ∀ b, n.bounds = some b → b.1 ≤ b.2 ∧ b.2 < W)
    (hwt : WT (fun _ => none) actual) {segs : List Seg}
    (h : handlePortConnection bits integral nodes W actual = .segments segs) :
    (∀ g ∈ segs, (∀ n ∈ g.portNodes, ∃ nd ∈ nodes, nd.id = n) ∧ ∀ x ∈ g.rhs, ¬ IsPort x) ∧
      (Lvalue actual → ∀ g ∈ segs, ∀ x ∈ g.rhs, IsSig x) ∧ (∀ g ∈ segs, g.lo < g.hi) ∧
      ∀ g ∈ segs, ∀ x ∈ g.rhs, ∀ p ∈ Origin.paths (originAt g.lo x), p ∈ actual.paths := by
  obtain ⟨tp, sp⟩ := port_slices_exact hb
  have hc : CutsOk (fun _ => none) := by intro s l h; cases h
  have ta := slices_tile true hc hwt
  unfold handlePortConnection at h
  split at h
  · cases h
  split at h
  · cases h
  dsimp only at h
  split at h
  · cases h
  split at h
  · cases h
  rename_i hw
  rw [tiled_zero_width tp, tiled_zero_width ta] at hw
  have hw : W = actual.width := Classical.byContradiction hw
  rw [← hw] at ta
  obtain ⟨segs', h1, h2, h3⟩ := align_tiles tp ta
  rw [walkSegments, h1] at h
  cases h
  have hor : ∀ g ∈ segs, ∀ x ∈ g.rhs, originAt g.lo x ∈ orig actual g.lo := by
    intro g hg x hx
    obtain ⟨⟨s, hs, a1, a2, a3⟩, ⟨t, ht, b1, b2, b3⟩⟩ := h3 g hg
    have hlt := tiledSeg_mem h2 hg
    rw [← (build_origins hc hwt t ht).2 g.lo b1 (by omega)]
    exact List.mem_map.2 ⟨x, b3 ▸ hx, rfl⟩
  refine ⟨fun g hg => ⟨?_, ?_⟩, ?_, fun g hg => tiledSeg_mem h2 hg,
    fun g hg x hx => orig_paths actual _ _ (hor g hg x hx)⟩
  · intro n hn
    obtain ⟨⟨s, hs, a1, a2, a3⟩, _⟩ := h3 g hg
    have hlt := tiledSeg_mem h2 hg
    simp only [Seg.portNodes, a3, List.mem_filterMap] at hn
    obtain ⟨src, hm, h⟩ := hn
    obtain ⟨nd, hn, b, hnb, e1, e2, rfl⟩ := (sp s hs g.lo a1 (by omega) src).1 hm
    simp only [Option.some.injEq] at h
    exact ⟨nd, hn, h⟩
  · intro x hx hp
    cases x with
    | portNode n lo hi => exact orig_noPort actual _ _ (hor g hg _ hx) _ _ rfl
    | _ => exact hp
  · intro hl g hg x hx
    obtain ⟨p, bit, ho⟩ := lvalue_orig actual hl _ _ (hor g hg x hx)
    cases x <;> simp [originAt] at ho
    trivial

theorem srcReads_rng {g : Seg} {k y q : Nat} {x : Src} (h1 : g.lo ≤ k) (h2 : k < g.hi)
    (h : SrcReadsBit g k y q x) : ∃ b, (y, b) ∈ x.reads g ∧ InRng b q := by
  have key : (∃ d ∈ x.reads g, d.1 = y ∧ (q : Int) = d.2.left + ((k : Int) - g.lo) ∧
      d.2.right = d.2.left + (g.hi - g.lo : Nat) - 1) → ∃ b, (y, b) ∈ x.reads g ∧ InRng b q := by
    rintro ⟨⟨y', b⟩, hd, rfl, h3, h4⟩
    refine ⟨b, hd, ?_⟩
    dsimp only at h3 h4
    obtain ⟨q1, q2⟩ := bounds_lower (b := b) (by omega)
    rw [inRng_iff, q1, q2]; omega
  cases x with
  | «opaque» e =>
    obtain ⟨⟨y', b⟩, hd, rfl, h3, h4⟩ := h
    refine ⟨b, hd, ?_⟩
    dsimp only at h3 h4
    obtain ⟨q1, q2⟩ := bounds_lower (b := b) (by omega)
    rw [inRng_iff, q1, q2]; omega
  | lsp p lo hi => exact key h
  | padding w => exact key h
  | portNode n lo hi => exact key h
  | const v lo hi => exact key h

theorem reads_pos {g : Seg} {x : Src} {y : Nat} {b : BitRange} (hlt : g.lo < g.hi) (h : (y, b) ∈ x.reads g) :
    b.left ≤ b.right ∧ 0 ≤ b.left := by
  cases x with
  | lsp p lo hi =>
    simp only [Src.reads, List.mem_map, Option.mem_toList, Prod.mk.injEq] at h
    obtain ⟨_, _, _, rfl⟩ := h
    simp only [lspRange, Seg.width]; omega
  | «opaque» e =>
    simp only [Src.reads, List.mem_filterMap, Option.map_eq_some_iff, Prod.mk.injEq] at h
    obtain ⟨p, _, _, _, _, rfl⟩ := h
    have : p.hi = p.lo + p.extra := rfl
    dsimp only; omega
  | _ => simp [Src.reads] at h

theorem rng_srcReads {g : Seg} {x : Src} {y q : Nat} {b : BitRange} (hlt : g.lo < g.hi) (h : (y, b) ∈ x.reads g)
    (hq : InRng b q) : ∃ k, g.lo ≤ k ∧ k < g.hi ∧ SrcReadsBit g k y q x := by
  obtain ⟨p1, p2⟩ := reads_pos hlt h
  obtain ⟨q1, q2⟩ := bounds_lower p1
  rw [inRng_iff, q1, q2] at hq
  cases x with
  | lsp p lo hi =>
    have h' := h
    simp only [Src.reads, List.mem_map, Option.mem_toList, Prod.mk.injEq] at h
    obtain ⟨_, _, _, rfl⟩ := h
    simp only [lspRange, Seg.width] at hq
    refine ⟨g.lo + (q - (p.lo + (g.lo - lo))), by omega, by omega, _, h', rfl, ?_, ?_⟩
    · simp only [lspRange]; omega
    · simp only [lspRange, Seg.width]
  | «opaque» e => exact ⟨g.lo, by omega, hlt, _, h, rfl, hq.1, hq.2⟩
  | _ => simp [Src.reads] at h

theorem portNds_ok {D : Design} {c : Col} (hc : Fine D c) (sym : Nat) :
    (∀ n ∈ c.portNds sym, ∀ b, n.bounds = some b → b.1 ≤ b.2 ∧ b.2 < D.width sym) ∧
    (∀ nd ∈ c.portNds sym, ∃ e ∈ c.b.vars sym, nd.id = e.val ∧ nd.bounds = some (e.lo.toNat, e.hi.toNat)) ∧
    ∀ e ∈ c.b.vars sym, ⟨e.val, some (e.lo.toNat, e.hi.toNat)⟩ ∈ c.portNds sym := by
  have key : ∀ e ∈ c.b.vars sym, ((c.b.net.data e.val).bounds.map fun b => (b.lower.toNat, b.upper.toNat)) =
      some (e.lo.toNat, e.hi.toNat) := by
    intro e he
    obtain ⟨_, nb, h1, h2, h3⟩ := hc.ok.vars sym e he
    rw [h1, Option.map_some, h2, h3]
  have h2 : ∀ nd ∈ c.portNds sym, ∃ e ∈ c.b.vars sym, nd.id = e.val ∧ nd.bounds = some (e.lo.toNat, e.hi.toNat) := by
    intro nd hn
    simp only [Col.portNds, VarTab.lookupAll, List.map_map, List.mem_map] at hn
    obtain ⟨e, he, rfl⟩ := hn
    exact ⟨e, he, rfl, key e he⟩
  refine ⟨?_, h2, ?_⟩
  · intro n hn b hb
    obtain ⟨e, he, _, h⟩ := h2 n hn
    rw [h] at hb; cases hb
    have := hc.rng sym e he
    dsimp only; omega
  · intro e he
    simp only [Col.portNds, VarTab.lookupAll, List.map_map, List.mem_map]
    exact ⟨e, he, by simp only [Function.comp, key e he]⟩

/-- What a connection reads and records, in terms of the ties between bits. -/
structure ConnEff (E : TravEnv) (k : Conn) (R W : Nat → BitRange → Nat → Prop) (c : Col) : Prop where
  reads : Simple E.opts E.D k → k.output = false → ∀ sym j y q, Ties E.opts E.D k sym j y q →
    ∀ e ∈ c.b.vars sym, e.lo ≤ j → (j : Int) ≤ e.hi → ∃ b, R y b e.val ∧ InRng b q
  writes : Simple E.opts E.D k → k.output = true → ∀ sym j y q, Ties E.opts E.D k sym j y q →
    ∀ e ∈ c.b.vars sym, e.lo ≤ j → (j : Int) ≤ e.hi → ∃ b, W y b e.val ∧ InRng b q
  input : ∀ y b n, W y b n → k.output = true
  output : Simple E.opts E.D k → ∀ y b n, R y b n → k.output = false
  only : ∀ y b n, R y b n ∨ W y b n → b.left ≤ b.right ∧ 0 ≤ b.left ∧
    ∃ sym i, k.formal = .port sym i ∧ ∃ e ∈ c.b.vars sym, e.val = n
  exact : Simple E.opts E.D k → Direct E.opts E.D k → ∀ y b n, R y b n ∨ W y b n → ∀ q : Nat, InRng b q →
    ∃ sym, ∃ e ∈ c.b.vars sym, e.val = n ∧ ∃ j : Nat, e.lo ≤ j ∧ (j : Int) ≤ e.hi ∧ Ties E.opts E.D k sym j y q
  root : ∀ y b n, R y b n ∨ W y b n → ∃ e, k.actual = some e ∧ ∃ p ∈ e.paths, p.root = some y
  side : ∀ y b n, R y b n → k.output = true → ∃ e, k.actual = some e ∧ ¬ Lvalue e
  whole : k.output = false → ∀ sym i, k.formal = .port sym i → ∀ a, k.actual = some a →
    (¬ BitWise E.opts E.D k sym a → ∀ p ∈ a.paths, ∀ y, p.root = some y → ∀ e ∈ c.b.vars sym, R y ⟨p.lo, p.hi⟩ e.val) ∧
    (BitWise E.opts E.D k sym a → ∀ off p y, Operand a off p → p.root = some y →
      (∀ e ∈ c.b.vars sym, ¬ ((off : Int) < e.lo ∧ e.lo ≤ off + p.extra) ∧ ¬ ((off : Int) ≤ e.hi ∧ e.hi < off + p.extra)) →
      ∀ e ∈ c.b.vars sym, e.lo ≤ off → (off : Int) ≤ e.hi → R y ⟨p.lo, p.hi⟩ e.val)

theorem ConnEff.none {E : TravEnv} {k : Conn} {c : Col}
    (hn : ∀ sym i, k.formal = .port sym i → ∀ a, k.actual = some a → ∀ e ∈ c.b.vars sym, False)
    (h : ∀ sym j y q, Ties E.opts E.D k sym j y q → ∀ e ∈ c.b.vars sym, e.lo ≤ j → (j : Int) ≤ e.hi → False) :
    ConnEff E k (fun _ _ _ => False) (fun _ _ _ => False) c :=
  ⟨fun _ _ sym j y q ht e he h1 h2 => (h sym j y q ht e he h1 h2).elim,
    fun _ _ sym j y q ht e he h1 h2 => (h sym j y q ht e he h1 h2).elim,
    by simp, by simp, by simp, by simp, by simp, by simp,
    fun _ sym i hf a ha => ⟨fun _ _ _ _ _ e he => hn sym i hf a ha e he, fun _ _ _ _ _ _ _ e he => (hn sym i hf a ha e he).elim⟩⟩

/-- The nodes of the port that is connected. -/
def PortsOf (k : Conn) (c : Col) (n : Nat) : Prop := ∃ sym i, k.formal = .port sym i ∧ ∃ e ∈ c.b.vars sym, e.val = n

theorem connect_ok {E : TravEnv} {c : Col} (hc : Fine E.D c) {k : Conn} (h : EventOk E.D (.connect k)) :
    ∃ c' R W, c.connect E k = .ok c' ∧ Eff E (k.output = false) (PortsOf k c) R W c c' ∧ ConnEff E k R W c := by
  obtain ⟨hm, hwt⟩ := h
  cases hf : k.formal with
  | interface =>
    refine ⟨c, _, _, by simp only [Col.connect, hf], Eff.nil hc, ConnEff.none ?_ ?_⟩
    · intro sym i h; rw [hf] at h; cases h
    · rintro sym j y q ⟨⟨i, h⟩, _⟩; rw [hf] at h; cases h
  | multi => exact absurd hf hm
  | port sym inner =>
    cases ha : k.actual with
    | none =>
      refine ⟨c, _, _, by simp only [Col.connect, hf, ha], Eff.nil hc, ConnEff.none ?_ ?_⟩
      · intro _ _ _ a h; rw [ha] at h; cases h
      · rintro sym j y q ⟨_, e, h, _⟩; rw [ha] at h; cases h
    | some a =>
      have hwt := hwt a ha
      obtain ⟨n1, n2, n3⟩ := portNds_ok hc sym
      obtain ⟨w1, w2, w3⟩ := port_walk_choice n1 hwt E.opts.resolveBits k.integral
      cases hw : handlePortConnection E.opts.resolveBits k.integral (c.portNds sym) (E.D.width sym) a with
      | assertFails => exact absurd hw w3
      | nothing =>
        refine ⟨c, _, _, by simp only [Col.connect, hf, ha, hw], Eff.nil hc, ConnEff.none ?_ ?_⟩
        · intro sym' i h _ _ e he
          rw [hf] at h; cases h
          have := (w2.1 hw).2.2
          have := hc.rng sym e he
          omega
        · rintro sym' j y q ⟨⟨i, h⟩, _⟩ e he h1 h2
          rw [hf] at h; cases h
          have := (w2.1 hw).2.2
          have := hc.rng sym e he
          omega
      | legacy =>
        have hnb : ¬ (BitWise E.opts E.D k sym a ∧ 0 < E.D.width sym) := by
          rintro ⟨⟨h1, h2, h3⟩, h4⟩
          rcases w1.1 hw with h | h | h
          · rw [h1] at h; cases h
          · rw [h2] at h; cases h
          · exact h.2 h3
        have hns : ∀ n ∈ c.b.vars.lookupAll sym, n ∈ c.b.net.g.nodes := by
          intro n hn
          obtain ⟨e, he, rfl⟩ := List.mem_map.1 hn
          exact (hc.ok.vars sym e he).1
        obtain ⟨c', a1, a2⟩ := paths_ok (K := k.output = false) (T := PortsOf k c) k.output (c.b.vars.lookupAll sym) a.paths hc hns
        have hcov : ∀ sym' j y q, Ties E.opts E.D k sym' j y q → ∀ e ∈ c.b.vars sym', e.lo ≤ j → (j : Int) ≤ e.hi →
            e.val ∈ c.b.vars.lookupAll sym ∧ ∃ p ∈ a.paths, p.root = some y ∧ p.lo ≤ q ∧ q ≤ p.hi := by
          rintro sym' j y q ⟨⟨i, h⟩, e', h', ht⟩ e he h1 h2
          rw [hf] at h; cases h
          rw [ha] at h'; cases h'
          have := hc.rng sym e he
          rcases ht with ⟨ht, _⟩ | ⟨_, p, hp, ht⟩
          · exact absurd ⟨ht, by omega⟩ hnb
          · exact ⟨List.mem_map.2 ⟨e, he, rfl⟩, p, hp, ht⟩
        refine ⟨c', _, _, by simp only [Col.connect, hf, ha, hw, a1], a2, ?_, ?_, ?_, ?_, ?_, ?_, ?_, ?_, ?_⟩
        · intro _ ho sym' j y q ht e he h1 h2
          obtain ⟨g1, p, hp, g2, g3, g4⟩ := hcov sym' j y q ht e he h1 h2
          refine ⟨⟨p.lo, p.hi⟩, ⟨ho, g1, p, hp, g2, rfl⟩, ?_⟩
          obtain ⟨q1, q2⟩ := bounds_lower (b := ⟨p.lo, p.hi⟩) (by dsimp only; omega)
          rw [inRng_iff, q1, q2]; dsimp only; omega
        · intro _ ho sym' j y q ht e he h1 h2
          obtain ⟨g1, p, hp, g2, g3, g4⟩ := hcov sym' j y q ht e he h1 h2
          refine ⟨⟨p.lo, p.hi⟩, ⟨ho, g1, p, hp, g2, rfl⟩, ?_⟩
          obtain ⟨q1, q2⟩ := bounds_lower (b := ⟨p.lo, p.hi⟩) (by dsimp only; omega)
          rw [inRng_iff, q1, q2]; dsimp only; omega
        · rintro y b n ⟨h, _⟩; exact h
        · rintro _ y b n ⟨h, _⟩; exact h
        · intro y b n h
          have h : n ∈ c.b.vars.lookupAll sym ∧ ∃ p ∈ a.paths, p.root = some y ∧ b = ⟨p.lo, p.hi⟩ :=
            h.elim (fun h => h.2) fun h => h.2
          obtain ⟨hn, p, _, _, rfl⟩ := h
          obtain ⟨e, he, h⟩ := List.mem_map.1 hn
          have : p.hi = p.lo + p.extra := rfl
          exact ⟨by dsimp only; omega, by dsimp only; omega, sym, inner, hf, e, he, h⟩
        · intro _ _ y b n h q hq
          have h : n ∈ c.b.vars.lookupAll sym ∧ ∃ p ∈ a.paths, p.root = some y ∧ b = ⟨p.lo, p.hi⟩ :=
            h.elim (fun h => h.2) fun h => h.2
          obtain ⟨hn, p, hp, hr, rfl⟩ := h
          obtain ⟨e, he, h⟩ := List.mem_map.1 hn
          have hre := hc.rng sym e he
          have hph : p.hi = p.lo + p.extra := rfl
          obtain ⟨q1, q2⟩ := bounds_lower (b := ⟨p.lo, p.hi⟩) (by dsimp only; omega)
          rw [inRng_iff, q1, q2] at hq
          dsimp only at hq
          refine ⟨sym, e, he, h, e.lo.toNat, by omega, by omega, ⟨inner, hf⟩, a, ha, .inr ⟨fun hb => hnb ⟨hb, by omega⟩,
            p, hp, hr, by omega, by omega⟩⟩
        · intro y b n h
          have h : n ∈ c.b.vars.lookupAll sym ∧ ∃ p ∈ a.paths, p.root = some y ∧ b = ⟨p.lo, p.hi⟩ :=
            h.elim (fun h => h.2) fun h => h.2
          obtain ⟨_, p, hp, hr, _⟩ := h
          exact ⟨a, ha, p, hp, hr⟩
        · rintro y b n ⟨h, _⟩ h'; rw [h] at h'; cases h'
        · intro ho sym' i h a' h'
          rw [hf] at h; cases h
          rw [ha] at h'; cases h'
          refine ⟨fun _ p hp y hy e he => ⟨ho, List.mem_map.2 ⟨e, he, rfl⟩, p, hp, hy, rfl⟩, fun hb off p y _ _ _ e he _ _ => ?_⟩
          have := hc.rng sym e he
          exact absurd ⟨hb, by omega⟩ hnb
      | segments segs =>
        have hbw : BitWise E.opts E.D k sym a ∧ 0 < E.D.width sym := by
          have g1 : ¬ (E.opts.resolveBits = false ∨ k.integral = false ∨ (0 < E.D.width sym ∧ E.D.width sym ≠ a.width)) := by
            rw [← w1, hw]; simp
          have g2 : ¬ (E.opts.resolveBits = true ∧ k.integral = true ∧ E.D.width sym = 0) := by
            rw [← w2, hw]; simp
          simp only [BitWise]
          cases hb : E.opts.resolveBits <;> cases hi : k.integral <;> simp [hb, hi] at g1 g2 ⊢
          omega
        obtain ⟨s1, s2, s3, s4⟩ := walk_srcs _ _ n1 hwt hw
        have hns : ∀ g ∈ segs, ∀ n ∈ g.portNodes, ∃ e ∈ c.b.vars sym, e.val = n := by
          intro g hg n hn
          obtain ⟨nd, h1, rfl⟩ := (s1 g hg).1 n hn
          obtain ⟨e, he, h2, _⟩ := n2 nd h1
          exact ⟨e, he, h2.symm⟩
        obtain ⟨c', a1, a2⟩ := connSegs_ok (E := E) (T := PortsOf k c) k.output segs hc
          (fun g hg n hn => by obtain ⟨e, he, rfl⟩ := hns g hg n hn; exact (hc.ok.vars sym e he).1)
          (fun g hg n hn => ⟨sym, inner, hf, hns g hg n hn⟩) fun g hg => (s1 g hg).2
        have hbits : Static a → TiledSeg 0 (E.D.width sym) segs ∧
            ∀ seg ∈ segs, ∀ k, seg.lo ≤ k → k < seg.hi →
              (∀ n, n ∈ seg.portNodes ↔ ∃ nd ∈ c.portNds sym, nd.id = n ∧ ∃ b, nd.bounds = some b ∧
                b.1 ≤ k ∧ k ≤ b.2) ∧
              ∀ sym b, (Routes a k sym b → ReadsBit seg k sym b) ∧
                (Aligned a → ReadsBit seg k sym b → Routes a k sym b) := by
          intro hst
          obtain ⟨segs', g1, g2, g3⟩ := port_bits_partial hbw.2 n1 hwt hbw.1.2.2 hst
          rw [hbw.1.1, hbw.1.2.1, g1] at hw
          cases hw
          exact ⟨g2, g3⟩
        have hcov : Simple E.opts E.D k → ∀ sym' j y q, Ties E.opts E.D k sym' j y q → ∀ e ∈ c.b.vars sym',
            e.lo ≤ j → (j : Int) ≤ e.hi → ∃ g ∈ segs, e.val ∈ g.portNodes ∧ ∃ x ∈ g.rhs, ∃ b,
              (y, b) ∈ x.reads g ∧ InRng b q := by
          rintro hs sym' j y q ⟨⟨i, h⟩, e', h', ht⟩ e he h1 h2
          rw [hf] at h; cases h
          rw [ha] at h'; cases h'
          have hre := hc.rng sym e he
          rcases ht with ⟨_, ht⟩ | ⟨ht, _⟩
          · obtain ⟨hst, _⟩ := hs sym inner a hf ha hbw.1
            obtain ⟨g1, g2⟩ := hbits hst
            obtain ⟨g, hg, g3, g4⟩ := tiledSeg_find g1 (Nat.zero_le j) (by omega)
            obtain ⟨g5, g6⟩ := g2 g hg j g3 g4
            obtain ⟨x, hx, hr⟩ := (g6 y q).1 ht
            refine ⟨g, hg, (g5 _).2 ⟨_, n3 e he, rfl, _, rfl, by dsimp only; omega, by dsimp only; omega⟩, x, hx, ?_⟩
            exact srcReads_rng g3 g4 hr
          · exact absurd hbw.1 ht
        have hpos : ∀ {y b n}, ((∃ g ∈ segs, n ∈ g.portNodes ∧ ∃ x ∈ g.rhs, (y, b) ∈ x.reads g ∧
            ¬ (k.output = true ∧ IsSig x)) ∨ ∃ g ∈ segs, n ∈ g.portNodes ∧ ∃ x ∈ g.rhs, (y, b) ∈ x.reads g ∧
            k.output = true ∧ IsSig x) → ∃ g ∈ segs, n ∈ g.portNodes ∧ ∃ x ∈ g.rhs, (y, b) ∈ x.reads g := by
          rintro y b n (⟨g, hg, h1, x, hx, h2, _⟩ | ⟨g, hg, h1, x, hx, h2, _⟩) <;> exact ⟨g, hg, h1, x, hx, h2⟩
        refine ⟨c', _, _, by simp only [Col.connect, hf, ha, hw, a1], a2, ?_, ?_, ?_, ?_, ?_, ?_, ?_, ?_, ?_⟩
        · intro hs ho sym' j y q ht e he h1 h2
          obtain ⟨g, hg, g1, x, hx, b, g2, g3⟩ := hcov hs sym' j y q ht e he h1 h2
          exact ⟨b, ⟨g, hg, g1, x, hx, g2, by simp [ho]⟩, g3⟩
        · intro hs ho sym' j y q ht e he h1 h2
          obtain ⟨g, hg, g1, x, hx, b, g2, g3⟩ := hcov hs sym' j y q ht e he h1 h2
          exact ⟨b, ⟨g, hg, g1, x, hx, g2, ho, s2 ((hs sym inner a hf ha hbw.1).2 ho) g hg x hx⟩, g3⟩
        · rintro y b n ⟨g, hg, h1, x, hx, h2, h3, _⟩; exact h3
        · rintro hs y b n ⟨g, hg, h1, x, hx, h2, h3⟩
          cases ho : k.output with
          | false => rfl
          | true => exact absurd ⟨ho, s2 ((hs sym inner a hf ha hbw.1).2 ho) g hg x hx⟩ h3
        · intro y b n h
          obtain ⟨g, hg, h1, x, hx, h2⟩ := hpos h
          have hlt := s3 g hg
          have := reads_pos hlt h2
          exact ⟨this.1, this.2, sym, inner, hf, hns g hg n h1⟩
        · intro hs hd y b n h q hq
          obtain ⟨g, hg, h1, x, hx, h2⟩ := hpos h
          have hlt := s3 g hg
          obtain ⟨hst, _⟩ := hs sym inner a hf ha hbw.1
          obtain ⟨_, g2⟩ := hbits hst
          obtain ⟨j, j1, j2, j3⟩ := rng_srcReads hlt h2 hq
          obtain ⟨g5, g6⟩ := g2 g hg j j1 j2
          obtain ⟨nd, hnd, rfl, bb, e1, e2, e3⟩ := (g5 n).1 h1
          obtain ⟨e, he, e4, e5⟩ := n2 nd hnd
          rw [e5] at e1; cases e1
          have hre := hc.rng sym e he
          dsimp only at e2 e3
          exact ⟨sym, e, he, e4.symm, j, by omega, by omega, ⟨inner, hf⟩, a, ha, .inl ⟨hbw.1,
            (g6 y q).2 (hd sym inner a hf ha hbw.1) ⟨x, hx, j3⟩⟩⟩
        · intro y b n h
          obtain ⟨g, hg, h1, x, hx, h2⟩ := hpos h
          exact ⟨a, ha, reads_path (s4 g hg x hx) h2⟩
        · rintro y b n ⟨g, hg, h1, x, hx, h2, h3⟩ ho
          exact ⟨a, ha, fun hl => h3 ⟨ho, s2 hl g hg x hx⟩⟩
        · intro ho sym' i h a' h'
          rw [hf] at h; cases h
          rw [ha] at h'; cases h'
          refine ⟨fun hb => absurd hbw.1 hb, fun _ off p y hop hy hnd e he h1 h2 => ?_⟩
          obtain ⟨g, hg, g1, g2, g3, g4⟩ := operand_segment _ _ n1 hwt hw hop (by
            intro n hn b hb
            obtain ⟨e, he, _, h⟩ := n2 n hn
            rw [h] at hb; cases hb
            have := hc.rng sym e he
            have := hnd e he
            dsimp only; omega)
          have hre := hc.rng sym e he
          refine ⟨g, hg, g4 _ (n3 e he) _ rfl (by dsimp only; omega) (by dsimp only; omega), .lsp p off (off + (p.extra + 1)),
            by rw [g3]; simp, ?_, by simp [ho]⟩
          simp only [Src.reads, hy, Option.toList, List.map_cons, List.map_nil, List.mem_singleton, Prod.mk.injEq, true_and]
          have : p.hi = p.lo + p.extra := rfl
          simp only [lspRange, Seg.width, BitRange.mk.injEq]
          omega

end Verif.Proofs

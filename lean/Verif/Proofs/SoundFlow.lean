import Verif.Spec.Sound
import Verif.Proofs.SoundNet
import Verif.Proofs.SoundMap

/-! Helper lemmas: every edge made by the analysis of a block is justified. -/
namespace Verif.Proofs
open Verif.Spec Verif.Model Verif.Props

/-- What the edges of a block may depend on. -/
structure BEnv where
  c : DfaCtx
  K : Disc
  near : BitRange → Int → Prop
  J : Ask → NodeData → NodeData → Prop
  Read : NodeData → Ref → (Wr → Prop) → Prop
  T : EdgeKind → Nat → Int → NodeData → Prop
  V : Nat → NodeData → Prop
  Wrt : Wr → Prop

/-- The driver of a bit is the node of a blocking write of the bit among `P`. -/
def BEnv.N (A : BEnv) (net : NetGraph) (P : Wr → Prop) (y : Nat) (p : Int) (d : Option Nat) : Prop :=
  ∃ n ∈ net.g.nodes, d = some n ∧ ∃ w, P w ∧ w.blocking = true ∧ w.sym = y ∧ A.near w.bounds p ∧
    net.data n = .assignment w.loc

/-- How the parts belong together. -/
structure BOk (A : BEnv) : Prop where
  ext : A.c.ext = none
  sub : ∀ b i, InRng b i → A.near b i
  adm : ∀ net P, A.K.adm (A.N net P)
  fit : ∀ w, A.Wrt w → A.K.fit w.sym w.bounds
  inside : ∀ {d r Q w i j}, A.Read d r Q → Q w → w.blocking = true → r.sym = w.sym →
    A.near w.bounds j → A.near r.bounds j → InRng r.bounds i →
    A.J (.bit ((A.c.D.ref r.sym).path, i)) (.assignment w.loc) d
  want : ∀ {d r Q i}, A.Read d r Q → InRng r.bounds i → A.T .none r.sym i d
  modport : ∀ {d r Q i v u nb}, A.Read d r Q → A.c.D.kind r.sym = .modportPort →
    v ∈ A.c.D.iface r.sym r.lsp → A.V v.1 u → u.bounds = some nb → SameBits nb v.2 →
    InRng r.bounds i → A.J (.bit ((A.c.D.ref r.sym).path, i)) u d

/-- The state of the analysis, with the last node one of `M`, the open condition one of `C` and the
writes so far `P`. -/
structure SOk (A : BEnv) (s : Dfa) (M C : NodeData → Prop) (P : Wr → Prop) : Prop where
  reach : Reachable s.net
  just : Just A.J s.net
  trk : TrkOk s.trk
  drv : A.K.I (A.N s.net P) s.trk s.cur.drv
  node : ∀ n, s.cur.node = some n → n ∈ s.net.g.nodes ∧ M (s.net.data n)
  cond : ∀ n, s.cur.cond = some n → n ∈ s.net.g.nodes ∧ C (s.net.data n)
  nba : ∀ x ∈ s.nba, ∃ n ∈ s.net.g.nodes, x.node = some n ∧ ∃ w, A.Wrt w ∧ w.sym = x.sym ∧
    w.bounds = x.bounds ∧ s.net.data n = .assignment w.loc
  queue : ∀ x ∈ s.queue, ∀ n, x.node = some n → n ∈ s.net.g.nodes ∧
    ∀ i, InRng x.bounds i → A.T x.kind x.sym i (s.net.data n)
  vars : ∀ y b n, A.c.vars.lookup y b = some n → n ∈ s.net.g.nodes ∧ A.V y (s.net.data n) ∧
    ∃ nb, (s.net.data n).bounds = some nb ∧ SameBits nb b

/-- The graph and the table of signals have grown. -/
structure SLe (s s' : Dfa) : Prop where
  net : NetLe s.net s'.net
  trk : TrkLe s.trk s'.trk

theorem SLe.refl (s : Dfa) : SLe s s := ⟨NetLe.refl _, TrkLe.refl _⟩

theorem SLe.trans {a b c : Dfa} (h : SLe a b) (k : SLe b c) : SLe a c :=
  ⟨h.net.trans k.net, h.trk.trans k.trk⟩

theorem n_mono {A : BEnv} {net net' : NetGraph} {P Q : Wr → Prop} (hl : NetLe net net')
    (hP : ∀ w, P w → Q w) : ∀ y p d, A.N net P y p d → A.N net' Q y p d := by
  rintro y p d ⟨n, hn, rfl, w, h1, h2, h3, h4, h5⟩
  exact ⟨n, hl.nodes n hn, rfl, w, hP w h1, h2, h3, h4, by rw [hl.data n hn]; exact h5⟩

theorem n_same {A : BEnv} {net net' : NetGraph} {P : Wr → Prop} (hd : net'.data = net.data)
    (hn : net'.g.nodes = net.g.nodes) : A.N net' P = A.N net P := by
  unfold BEnv.N; rw [hd, hn]

/-- A new graph with the same nodes. -/
theorem SOk.net {A : BEnv} {s : Dfa} {M C : NodeData → Prop} {P : Wr → Prop} (h : SOk A s M C P)
    {net' : NetGraph} (h1 : Reachable net') (h2 : Just A.J net') (h3 : net'.data = s.net.data)
    (h4 : net'.g.nodes = s.net.g.nodes) : SOk A { s with net := net' } M C P :=
  { reach := h1
    just := h2
    trk := h.trk
    drv := by rw [n_same h3 h4]; exact h.drv
    node := by dsimp only; rw [h3, h4]; exact h.node
    cond := by dsimp only; rw [h3, h4]; exact h.cond
    nba := by dsimp only; rw [h3, h4]; exact h.nba
    queue := by dsimp only; rw [h3, h4]; exact h.queue
    vars := by dsimp only; rw [h3, h4]; exact h.vars }

/-- Weaker information. -/
theorem SOk.weaken {A : BEnv} {s : Dfa} {M M' C C' : NodeData → Prop} {P P' : Wr → Prop}
    (h : SOk A s M C P) (hM : ∀ d, M d → M' d) (hC : ∀ d, C d → C' d) (hP : ∀ w, P w → P' w) :
    SOk A s M' C' P' :=
  { h with
    drv := A.K.mono (TrkLe.refl _) (n_mono (NetLe.refl _) hP) h.drv
    node := fun n hn => ⟨(h.node n hn).1, hM _ (h.node n hn).2⟩
    cond := fun n hn => ⟨(h.cond n hn).1, hC _ (h.cond n hn).2⟩ }

theorem same_le {a b : NetGraph} (hd : b.data = a.data) (hn : b.g.nodes = a.g.nodes)
    (hj : ∀ s t, Joined a s t → Joined b s t) : NetLe a b :=
  ⟨fun n h => hn ▸ h, fun _ _ => by rw [hd], hj⟩

theorem deps_grow {net net' : NetGraph} {ds : List Dep} (hr : Reachable net)
    (h : net.addDependencies ds = some net') : NetLe net net' := by
  induction ds generalizing net with
  | nil => cases h; exact NetLe.refl _
  | cons d ds ih =>
    simp only [NetGraph.addDependencies] at h
    split at h
    · cases h
    · rename_i n1 e1
      by_cases hn : d.src ∈ net.g.nodes ∧ d.tgt ∈ net.g.nodes
      · obtain ⟨n2, e2, r2, d2, g2, a2⟩ := addDependency_spec hr hn.1 hn.2
        rw [e1] at e2; cases e2
        refine NetLe.trans (same_le d2 g2 fun s t hj => ?_) (ih r2 h)
        rw [joined_iff] at hj ⊢
        rw [a2]
        split
        · exact annStep_ne _ _ _ _
        · exact hj
      · rw [addDependency_none hn] at e1; cases e1

theorem sound_deps {A : BEnv} {s s' : Dfa} {M C : NodeData → Prop} {P : Wr → Prop} (hs : SOk A s M C P)
    {ds : List Dep} (hd : ∀ d ∈ ds, DepJust A.J s.net d) (h : s.addDeps ds = .ok s') :
    SOk A s' M C P ∧ SLe s s' ∧ s'.cur = s.cur := by
  unfold Dfa.addDeps at h
  split at h
  · cases h
  · rename_i net' e
    cases h
    obtain ⟨h1, h2, h3, h4⟩ := just_deps ds hs.reach hs.just hd e
    exact ⟨hs.net h1 h2 h3 h4, ⟨deps_grow hs.reach e, TrkLe.refl _⟩, rfl⟩

theorem sound_plain {A : BEnv} {s s' : Dfa} {M C : NodeData → Prop} {P : Wr → Prop} (hs : SOk A s M C P)
    {a b : Nat} (hj : A.J .plain (s.net.data a) (s.net.data b)) (h : s.addPlain a b = .ok s') :
    SOk A s' M C P ∧ SLe s s' ∧ s'.cur = s.cur ∧ s'.net.data = s.net.data ∧
      s'.net.g.nodes = s.net.g.nodes := by
  unfold Dfa.addPlain at h
  split at h
  · cases h
  · rename_i net' e
    cases h
    obtain ⟨h1, h2, h3, h4⟩ := just_addEdge hs.reach hs.just hj e
    obtain ⟨ha, hb⟩ := call_addEdge_mem e
    obtain ⟨n2, e2, _, l2, _⟩ := addEdge_le hs.reach ha hb
    rw [e] at e2; cases e2
    exact ⟨hs.net h1 h2 h3 h4, ⟨l2, TrkLe.refl _⟩, rfl, h3, h4⟩

theorem sound_node {A : BEnv} {s s' : Dfa} {M C : NodeData → Prop} {P : Wr → Prop} (hs : SOk A s M C P)
    {d : NodeData} {n : Nat} (h : s.newNode d = .ok (s', n)) :
    SOk A s' M C P ∧ SLe s s' ∧ s'.cur = s.cur ∧ n ∈ s'.net.g.nodes ∧ s'.net.data n = d := by
  unfold Dfa.newNode at h
  split at h
  · cases h
  · rename_i net' e
    cases h
    obtain ⟨h1, h2, h3, h4, h5⟩ := just_addNode hs.reach hs.just e
    have hmem : ∀ n ∈ s.net.g.nodes, ∀ Q : NodeData → Prop, Q (s.net.data n) →
        n ∈ net'.g.nodes ∧ Q (net'.data n) :=
      fun n hn Q hq => ⟨h3.nodes n hn, by rw [h3.data n hn]; exact hq⟩
    refine ⟨⟨h1, h2, hs.trk, A.K.mono (TrkLe.refl _) (n_mono h3 fun _ h => h) hs.drv, ?_, ?_, ?_, ?_, ?_⟩,
      ⟨h3, TrkLe.refl _⟩, rfl, by rw [h5]; simp, h4⟩
    · exact fun n hn => hmem n (hs.node n hn).1 M (hs.node n hn).2
    · exact fun n hn => hmem n (hs.cond n hn).1 C (hs.cond n hn).2
    · intro x hx
      obtain ⟨n, hn, g1, w, g2, g3, g4, g5⟩ := hs.nba x hx
      exact ⟨n, h3.nodes n hn, g1, w, g2, g3, g4, by dsimp only; rw [h3.data n hn]; exact g5⟩
    · intro x hx n hn
      obtain ⟨g1, g2⟩ := hs.queue x hx n hn
      exact hmem n g1 (fun d => ∀ i, InRng x.bounds i → A.T x.kind x.sym i d) g2
    · intro y b n hn
      obtain ⟨g1, g2⟩ := hs.vars y b n hn
      exact hmem n g1 (fun d => A.V y d ∧ ∃ nb, d.bounds = some nb ∧ SameBits nb b) g2

/-! ### Reads -/

theorem sound_rvalue {A : BEnv} (hA : BOk A) {s s' : Dfa} {M C : NodeData → Prop} {P : Wr → Prop}
    (hs : SOk A s M C P) {r : Ref} {b : BitRange} {node : Option Nat}
    (hn : ∀ n, node = some n → n ∈ s.net.g.nodes ∧ A.Read (s.net.data n) r P)
    (hb : ∀ i, InRng b i → InRng r.bounds i) (h : s.addRvalue A.c r b node = .ok s') :
    SOk A s' M C P ∧ SLe s s' ∧ s'.cur = s.cur := by
  unfold Dfa.addRvalue at h
  split at h
  · rename_i n hk
    refine sound_deps hs (fun d hd => ?_) h
    obtain ⟨v, hv, hm⟩ := List.mem_filterMap.1 hd
    cases hl : A.c.vars.lookup v.1 v.2 with
    | none => rw [hl] at hm; cases hm
    | some vn =>
      rw [hl] at hm
      cases hm
      obtain ⟨_, g2, nb, g3, g4⟩ := hs.vars _ _ _ hl
      exact ⟨_, rfl, fun h => absurd rfl h, fun i hi => hA.modport (hn n rfl).2 hk hv g2 g3 g4 (hb i (inRng_dep hi))⟩
  · cases h
    refine ⟨{ hs with queue := ?_ }, ⟨NetLe.refl _, TrkLe.refl _⟩, rfl⟩
    intro x hx n hxn
    rcases List.mem_append.1 hx with hx | hx
    · exact hs.queue x hx n hxn
    · rw [List.mem_singleton] at hx
      subst hx
      exact ⟨(hn n hxn).1, fun i hi => hA.want (hn n hxn).2 (hb i hi)⟩

theorem sound_rvalues {A : BEnv} (hA : BOk A) {r : Ref} {node : Option Nat} {M C : NodeData → Prop}
    {P : Wr → Prop} (es : List (Ivl Unit)) : ∀ {s s' : Dfa}, SOk A s M C P →
      (∀ n, node = some n → n ∈ s.net.g.nodes ∧ A.Read (s.net.data n) r P) →
      (∀ e ∈ es, ∀ i, InRng ⟨e.lo, e.hi⟩ i → InRng r.bounds i) → s.addRvalues A.c r node es = .ok s' →
      SOk A s' M C P ∧ SLe s s' ∧ s'.cur = s.cur := by
  induction es with
  | nil => intro s s' hs _ _ h; cases h; exact ⟨hs, SLe.refl _, rfl⟩
  | cons e es ih =>
    intro s s' hs hn hb h
    unfold Dfa.addRvalues at h
    split at h
    · cases h
    · rename_i s1 h1
      obtain ⟨a1, a2, a3⟩ := sound_rvalue hA hs hn (hb e List.mem_cons_self) h1
      obtain ⟨b1, b2, b3⟩ := ih a1 (fun n hn' => by
        obtain ⟨g1, g2⟩ := hn n hn'
        exact ⟨a2.net.nodes n g1, by rw [a2.net.data n g1]; exact g2⟩)
        (fun x hx => hb x (List.mem_cons_of_mem _ hx)) h
      exact ⟨b1, a2.trans b2, b3.trans a3⟩

theorem readLoop_sound {m : DMap} {b : BitRange} {n : Nat} {ref : SymRef} (es : List (Ivl Nat)) :
    ∀ {ds : List Dep} {fin : Bool}, readLoop m b n ref es = .ok (ds, fin) → ∀ d ∈ ds,
      d.tgt = n ∧ d.sym = some ref ∧ d.bounds = b ∧ d.kind = .none ∧
        ∃ e ∈ es, ∃ l, m.getList e.val = .ok l ∧ HasN l (some d.src) := by
  induction es with
  | nil => intro ds fin h d hd; cases h; cases hd
  | cons e es ih =>
    intro ds fin h d hd
    unfold readLoop at h
    split at h
    · cases h
    · rename_i l hl
      have key : ∀ d ∈ driverDeps l n ref b, d.tgt = n ∧ d.sym = some ref ∧ d.bounds = b ∧ d.kind = .none ∧
          ∃ e' ∈ e :: es, ∃ l, m.getList e'.val = .ok l ∧ HasN l (some d.src) := by
        intro d hd
        obtain ⟨x, hx, hm⟩ := List.mem_filterMap.1 hd
        cases hxn : x.node with
        | none => rw [hxn] at hm; cases hm
        | some k =>
          rw [hxn] at hm
          cases hm
          exact ⟨rfl, rfl, rfl, rfl, e, List.mem_cons_self, l, hl, x, hx, hxn⟩
      have tail : ∀ {ds' : List Dep} {fin' : Bool}, readLoop m b n ref es = .ok (ds', fin') → d ∈ ds' →
          d.tgt = n ∧ d.sym = some ref ∧ d.bounds = b ∧ d.kind = .none ∧
          ∃ e' ∈ e :: es, ∃ l, m.getList e'.val = .ok l ∧ HasN l (some d.src) := by
        intro ds' fin' h' hd'
        obtain ⟨g1, g2, g3, gk, e', he', g4⟩ := ih h' d hd'
        exact ⟨g1, g2, g3, gk, e', List.mem_cons_of_mem _ he', g4⟩
      split at h
      · cases h; exact key d hd
      · split at h
        · cases h
        · rename_i ds1 fin1 h1
          split at h
          · cases h
            rcases List.mem_append.1 hd with hd | hd
            · exact key d hd
            · exact tail h1 hd
          · cases h; exact tail h1 hd

theorem sound_read {A : BEnv} (hA : BOk A) {s s' : Dfa} {M C : NodeData → Prop} {P : Wr → Prop}
    (hs : SOk A s M C P) {r : Ref} (hr : ∀ d, M d → A.Read d r P) (h : s.handleRvalue A.c r = .ok s') :
    SOk A s' M C P ∧ SLe s s' ∧ s'.cur = s.cur := by
  unfold Dfa.handleRvalue at h
  split at h
  · refine sound_rvalue hA hs ?_ (fun _ h => h) h
    rw [hA.ext, Option.or_none]
    exact fun n hn => ⟨(hs.node n hn).1, hr _ (hs.node n hn).2⟩
  · rename_i m hm
    split at h
    · refine sound_rvalue hA hs ?_ (fun _ h => h) h
      rw [hA.ext]
      intro n hn; cases hn
    · rename_i n hn
      split at h
      · cases h
      · rename_i ds fin hl
        split at h
        · cases h
        · rename_i s1 h1
          obtain ⟨hn1, hn2⟩ := hs.node n hn
          have hR := hr _ hn2
          obtain ⟨i, hi1, hi2⟩ := Option.bind_eq_some_iff.1 hm
          obtain ⟨a1, a2, a3⟩ := sound_deps hs (fun d hd => by
            obtain ⟨g1, g2, g3, gk, e, he, l, hl, hN⟩ := readLoop_sound _ hl d hd
            obtain ⟨he1, he2⟩ := List.mem_filter.1 he
            obtain ⟨k1, _, _, k4⟩ := A.K.get (hA.adm _ _) hs.trk hs.drv (getSlot_mem hi1) hi2 he1 hl
            simp only [Ivl.hits, Bool.and_eq_true, decide_eq_true_eq] at he2
            have hb := bounds_le r.bounds
            obtain ⟨k, hk, hkd, w, w1, w2, w3, w4, w5⟩ := k4 _ hN (max e.lo r.bounds.lower)
              (by omega) (by omega)
            cases hkd
            refine ⟨_, g2, fun h => absurd gk h, fun i hi => ?_⟩
            have hi' := inRng_dep hi
            rw [g3] at hi'
            rw [w5, g1]
            exact hA.inside hR w1 w2 w3.symm w4
              (hA.sub _ _ ((inRng_iff _ _).2 ⟨by omega, by omega⟩)) hi') h1
          split at h
          · cases h; exact ⟨a1, a2, a3⟩
          · split at h
            · cases h
            · rename_i rest hd
              have hin := difference_inside (bounds_le r.bounds) hd
              obtain ⟨b1, b2, b3⟩ := sound_rvalues hA rest a1 (fun k hk => by
                cases hk
                exact ⟨a2.net.nodes n hn1, by rw [a2.net.data n hn1]; exact hR⟩)
                (fun e he i hi => by
                  have h1 := hin e he
                  have h2 := (inRng_iff _ _).1 hi
                  simp only [BitRange.lower, BitRange.upper] at h2
                  exact (inRng_iff _ _).2 ⟨by omega, by omega⟩) h
              exact ⟨b1, a2.trans b2, b3.trans a3⟩

/-! ### Writes -/

theorem inRng_self (b : BitRange) : InRng b b.lower := (inRng_iff _ _).2 ⟨Int.le_refl _, bounds_le b⟩

theorem sound_write {A : BEnv} (hA : BOk A) {s s' : Dfa} {M C : NodeData → Prop} {P : Wr → Prop}
    (hs : SOk A s M C P) {loc : TextLoc} {n : Nat} (hn : s.cur.node = some n)
    (hd : s.net.data n = .assignment loc) {blocking : Bool} {r : Ref}
    (hw : A.Wrt ⟨r.sym, r.bounds, loc, blocking⟩) (hP : P ⟨r.sym, r.bounds, loc, blocking⟩)
    (h : s.handleLvalue blocking r = .ok s') :
    SOk A s' M C P ∧ SLe s s' ∧ s'.cur.node = s.cur.node ∧ s'.cur.cond = s.cur.cond ∧
      s'.net = s.net := by
  have hnm := (hs.node n hn).1
  unfold Dfa.handleLvalue at h
  split at h
  · cases h
    refine ⟨{ hs with nba := ?_ }, ⟨NetLe.refl _, TrkLe.refl _⟩, rfl, rfl, rfl⟩
    intro x hx
    rcases List.mem_append.1 hx with hx | hx
    · exact hs.nba x hx
    · rw [List.mem_singleton] at hx
      subst hx
      exact ⟨n, hnm, hn, _, hw, rfl, rfl, hd⟩
  · rename_i hbl
    have hbl : blocking = true := by simpa using hbl
    subst hbl
    split at h
    · cases h
    · rename_i t' drv' ha
      cases h
      have hall : ∀ p, InRng r.bounds p → A.N s.net P r.sym p (some n) := fun p hp =>
        ⟨n, hnm, rfl, _, hP, rfl, rfl, hA.sub _ _ hp, hd⟩
      obtain ⟨a1, a2, a3⟩ := disc_add A.K (hA.adm _ _) hs.trk hs.drv (hA.fit _ hw)
        (by rw [hn]; exact A.K.one (hall _ (inRng_self _)) _)
        (by
          rintro d ⟨x, hx, rfl⟩ p hp
          rw [List.mem_singleton] at hx
          subst hx
          dsimp only
          rw [hn]
          exact hall p hp) ha
      exact ⟨{ hs with trk := a1, drv := a3 }, ⟨NetLe.refl _, a2⟩, rfl, rfl, rfl⟩

/-! ### Assignments -/

/-- What may happen in the assignment at `loc`: its reads and writes. -/
structure AsgOk (A : BEnv) (loc : TextLoc) (blocking : Bool) (P : Wr → Prop) (rd wr : Ref → Prop) : Prop where
  read : ∀ r, rd r → A.Read (.assignment loc) r P
  write : ∀ r, wr r → A.Wrt ⟨r.sym, r.bounds, loc, blocking⟩ ∧ P ⟨r.sym, r.bounds, loc, blocking⟩

/-- Inside the assignment at `loc`. -/
structure InAsg (A : BEnv) (loc : TextLoc) (P : Wr → Prop) (s s' : Dfa) : Prop where
  ok : SOk A s' (fun d => d = .assignment loc) (fun _ => False) P
  le : SLe s s'
  node : s'.cur.node = s.cur.node

theorem InAsg.trans {A : BEnv} {loc : TextLoc} {P : Wr → Prop} {a b c : Dfa} (h : InAsg A loc P a b)
    (k : InAsg A loc P b c) : InAsg A loc P a c := ⟨k.ok, h.le.trans k.le, k.node.trans h.node⟩

theorem sound_note {A : BEnv} (hA : BOk A) {loc : TextLoc} {blocking : Bool} {P : Wr → Prop}
    {rd wr : Ref → Prop} (hok : AsgOk A loc blocking P rd wr) {s s' : Dfa}
    (hs : SOk A s (fun d => d = .assignment loc) (fun _ => False) P)
    (hn : ∃ n, s.cur.node = some n) {x : Note}
    (hx : x.ref.auto = false → if x.write then wr x.ref else rd x.ref)
    (h : s.noteRef A.c blocking x = .ok s') : InAsg A loc P s s' := by
  unfold Dfa.noteRef at h
  split at h
  · cases h; exact ⟨hs, SLe.refl _, rfl⟩
  split at h
  · cases h; exact ⟨hs, SLe.refl _, rfl⟩
  rename_i ha
  have hx := hx (by simpa using ha)
  obtain ⟨n, hn⟩ := hn
  split at h
  · rename_i hwr
    rw [if_pos hwr] at hx
    obtain ⟨h1, h2⟩ := hok.write _ hx
    obtain ⟨a1, a2, a3, _⟩ := sound_write hA hs hn (hs.node n hn).2 h1 h2 h
    exact ⟨a1, a2, a3⟩
  · rename_i hwr
    rw [if_neg hwr] at hx
    obtain ⟨a1, a2, a3⟩ := sound_read hA hs (by rintro d rfl; exact hok.read _ hx) h
    exact ⟨a1, a2, by rw [a3]⟩

theorem sound_notes {A : BEnv} (hA : BOk A) {loc : TextLoc} {blocking : Bool} {P : Wr → Prop}
    {rd wr : Ref → Prop} (hok : AsgOk A loc blocking P rd wr) (xs : List Note) : ∀ {s s' : Dfa},
      SOk A s (fun d => d = .assignment loc) (fun _ => False) P → (∃ n, s.cur.node = some n) →
      (∀ x ∈ xs, x.ref.auto = false → if x.write then wr x.ref else rd x.ref) →
      s.noteRefs A.c blocking xs = .ok s' → InAsg A loc P s s' := by
  induction xs with
  | nil => intro s s' hs _ _ h; cases h; exact ⟨hs, SLe.refl _, rfl⟩
  | cons x xs ih =>
    intro s s' hs hn hx h
    unfold Dfa.noteRefs at h
    split at h
    · cases h
    · rename_i s1 h1
      have a := sound_note hA hok hs hn (hx x List.mem_cons_self) h1
      exact a.trans (ih a.ok (by rw [a.node]; exact hn) (fun y hy => hx y (List.mem_cons_of_mem _ hy)) h)

theorem sound_segLhs {A : BEnv} (hA : BOk A) {loc : TextLoc} {blocking : Bool} {P : Wr → Prop}
    {rd wr : Ref → Prop} (hok : AsgOk A loc blocking P rd wr) (rs : List Ref) : ∀ {s s' : Dfa},
      SOk A s (fun d => d = .assignment loc) (fun _ => False) P → (∃ n, s.cur.node = some n) →
      (∀ r ∈ rs, wr r) → s.segLhs blocking rs = .ok s' → InAsg A loc P s s' := by
  induction rs with
  | nil => intro s s' hs _ _ h; cases h; exact ⟨hs, SLe.refl _, rfl⟩
  | cons r rs ih =>
    intro s s' hs hn hx h
    unfold Dfa.segLhs at h
    split at h
    · cases h
    · rename_i s1 h1
      obtain ⟨n, hn'⟩ := hn
      obtain ⟨g1, g2⟩ := hok.write _ (hx r List.mem_cons_self)
      obtain ⟨a1, a2, a3, _⟩ := sound_write hA hs hn' (hs.node n hn').2 g1 g2 h1
      have a : InAsg A loc P s s1 := ⟨a1, a2, a3⟩
      exact a.trans (ih a.ok (by rw [a.node]; exact ⟨n, hn'⟩)
        (fun y hy => hx y (List.mem_cons_of_mem _ hy)) h)

theorem sound_segSrc {A : BEnv} (hA : BOk A) {loc : TextLoc} {blocking : Bool} {P : Wr → Prop}
    {rd wr : Ref → Prop} (hok : AsgOk A loc blocking P rd wr) {s s' : Dfa}
    (hs : SOk A s (fun d => d = .assignment loc) (fun _ => False) P) (hn : ∃ n, s.cur.node = some n)
    {x : RSrc} (hx : ∀ r, SrcReads x r → rd r)
    (hc : ∀ v w l, x = .constant v w l → A.J .plain (.constant v w l) (.assignment loc))
    (h : s.segSrc A.c blocking x = .ok s') : InAsg A loc P s s' := by
  cases x with
  | lsp r =>
    obtain ⟨a1, a2, a3⟩ := sound_read hA hs (by rintro d rfl; exact hok.read _ (hx r (.lsp r))) h
    exact ⟨a1, a2, by rw [a3]⟩
  | «opaque» rs =>
    refine sound_notes hA hok _ hs hn (fun y hy ha => ?_) h
    obtain ⟨r, hr, rfl⟩ := List.mem_map.1 hy
    exact hx r (.inside hr ha)
  | padding => cases h; exact ⟨hs, SLe.refl _, rfl⟩
  | constant v w l =>
    obtain ⟨n, hn⟩ := hn
    simp only [Dfa.segSrc, hn] at h
    split at h
    · cases h
    · rename_i s1 k h1
      obtain ⟨a1, a2, a3, a4, a5⟩ := sound_node hs h1
      obtain ⟨hm, hd⟩ := hs.node n hn
      obtain ⟨b1, b2, b3, _⟩ := sound_plain a1 (by
        rw [a5, a2.net.data n hm, hd]; exact hc v w l rfl) h
      exact ⟨b1, a2.trans b2, by rw [b3, a3]⟩

theorem sound_segRhs {A : BEnv} (hA : BOk A) {loc : TextLoc} {blocking : Bool} {P : Wr → Prop}
    {rd wr : Ref → Prop} (hok : AsgOk A loc blocking P rd wr) (xs : List RSrc) : ∀ {s s' : Dfa},
      SOk A s (fun d => d = .assignment loc) (fun _ => False) P → (∃ n, s.cur.node = some n) →
      (∀ x ∈ xs, ∀ r, SrcReads x r → rd r) →
      (∀ v w l, .constant v w l ∈ xs → A.J .plain (.constant v w l) (.assignment loc)) →
      s.segRhs A.c blocking xs = .ok s' → InAsg A loc P s s' := by
  induction xs with
  | nil => intro s s' hs _ _ _ h; cases h; exact ⟨hs, SLe.refl _, rfl⟩
  | cons x xs ih =>
    intro s s' hs hn hx hc h
    unfold Dfa.segRhs at h
    split at h
    · cases h
    · rename_i s1 h1
      have a := sound_segSrc hA hok hs hn (hx x List.mem_cons_self)
        (fun v w l he => hc v w l (he ▸ List.mem_cons_self)) h1
      exact a.trans (ih a.ok (by rw [a.node]; exact hn) (fun y hy => hx y (List.mem_cons_of_mem _ hy))
        (fun v w l hm => hc v w l (List.mem_cons_of_mem _ hm)) h)

theorem sound_update {A : BEnv} {s s' : Dfa} {M C : NodeData → Prop} {P : Wr → Prop}
    (hs : SOk A s M C P) {n : Nat} {conditional : Bool} (hn : n ∈ s.net.g.nodes)
    (hj : ∀ u, C u → A.J .plain u (s.net.data n)) (h : s.updateNode n conditional = .ok s') :
    SOk A s' (fun d => d = s.net.data n) (fun d => conditional = true ∧ d = s.net.data n) P ∧ SLe s s' ∧
      s'.cur.node = some n := by
  unfold Dfa.updateNode at h
  dsimp only at h
  split at h
  · cases h
    refine ⟨{ hs with node := ?_, cond := ?_ }, ⟨NetLe.refl _, TrkLe.refl _⟩, rfl⟩
    · rintro k hk; cases hk; exact ⟨hn, rfl⟩
    · intro k hk
      cases conditional
      · cases hk
      · cases hk; exact ⟨hn, rfl, rfl⟩
  · rename_i k hk
    split at h
    · cases h
    · rename_i s1 h1
      cases h
      obtain ⟨a1, a2, a3, a4, a5⟩ := sound_plain hs (hj _ (hs.cond k hk).2) h1
      refine ⟨{ a1 with node := ?_, cond := ?_ }, ⟨a2.net, a2.trk⟩, rfl⟩
      · rintro k hk; cases hk; exact ⟨a2.net.nodes n hn, by dsimp only; rw [a4]⟩
      · intro k hk
        cases conditional
        · cases hk
        · cases hk; exact ⟨a2.net.nodes n hn, rfl, by dsimp only; rw [a4]⟩

theorem sound_startAssign {A : BEnv} {s s' : Dfa} {M C : NodeData → Prop} {P : Wr → Prop}
    (hs : SOk A s M C P) {loc : TextLoc} (hj : ∀ u, C u → A.J .plain u (.assignment loc))
    (h : s.startAssign loc = .ok s') :
    SOk A s' (fun d => d = .assignment loc) (fun _ => False) P ∧ SLe s s' ∧
      ∃ n, s'.cur.node = some n := by
  unfold Dfa.startAssign at h
  split at h
  · cases h
  · rename_i s1 n h1
    obtain ⟨a1, a2, a3, a4, a5⟩ := sound_node hs h1
    obtain ⟨b1, b2, b3⟩ := sound_update a1 a4 (by rw [a5]; exact hj) h
    rw [a5] at b1
    exact ⟨b1.weaken (fun _ h => h) (fun d hd => by cases hd.1) (fun _ h => h), a2.trans b2, n, b3⟩

/-- What each segment does is allowed, with the writes of the segments up to it made. -/
def SegsOk (A : BEnv) (loc : TextLoc) (blocking : Bool) (C0 : NodeData → Prop) (P : Wr → Prop)
    (segs : List DSeg) : Prop :=
  ∀ as g bs, segs = as ++ g :: bs →
    AsgOk A g.loc blocking (fun w => P w ∨ w ∈ asgWrites loc blocking (.aligned (as ++ [g])))
      (fun r => ∃ x ∈ g.rhs, SrcReads x r) (· ∈ g.lhs) ∧
    (∀ v w l, .constant v w l ∈ g.rhs → A.J .plain (.constant v w l) (.assignment g.loc)) ∧
    ∀ u, C0 u → A.J .plain u (.assignment g.loc)

theorem sound_segments {A : BEnv} (hA : BOk A) {loc : TextLoc} {blocking : Bool}
    {C0 : NodeData → Prop} {node cond : Option Nat} (segs : List DSeg) :
    ∀ {s s' : Dfa} {M C : NodeData → Prop} {P : Wr → Prop}, SOk A s M C P →
      SegsOk A loc blocking C0 P segs →
      (∀ n, node = some n → n ∈ s.net.g.nodes) →
      (∀ n, cond = some n → n ∈ s.net.g.nodes ∧ C0 (s.net.data n)) →
      s.segments A.c blocking node cond segs = .ok s' →
      (segs = [] → s' = s) ∧
      (∀ l, (segs.map (·.loc)).getLast? = some l → SOk A s' (fun d => d = .assignment l) (fun _ => False)
        (fun w => P w ∨ w ∈ asgWrites loc blocking (.aligned segs))) ∧
      SLe s s' := by
  induction segs with
  | nil => intro s s' M C P hs _ _ _ h; cases h; exact ⟨fun _ => rfl, fun _ h => (by cases h), SLe.refl _⟩
  | cons g gs ih =>
    intro s s' M C P hs hg hno hco h
    refine ⟨by simp, ?_⟩
    obtain ⟨hok, hlit, hj⟩ := hg [] g gs rfl
    unfold Dfa.segments at h
    dsimp only at h
    split at h
    · cases h
    · rename_i s1 h1
      split at h
      · cases h
      · rename_i s2 h2
        have hs0 : SOk A { s with cur := { s.cur with node := node, cond := cond } } (fun _ => True) C0
            (fun w => P w ∨ w ∈ asgWrites loc blocking (.aligned [g])) :=
          { hs.weaken (fun _ h => h) (fun _ h => h) (fun _ h => .inl h) with
            node := fun n hn => ⟨hno n hn, trivial⟩, cond := hco }
        obtain ⟨a1, a2, a3⟩ := sound_startAssign hs0 hj h1
        have a2 : SLe s s1 := ⟨a2.net, a2.trk⟩
        unfold Dfa.segBody at h2
        split at h2
        · cases h2
        · rename_i s3 h3
          have b := sound_segLhs hA hok g.lhs a1 a3 (fun _ h => h) h3
          have c := sound_segRhs hA hok g.rhs b.ok (by rw [b.node]; exact a3)
            (fun x hx r hr => ⟨x, hx, hr⟩) hlit h2
          have bc := b.trans c
          have hle := a2.trans bc.le
          have heq : ∀ as, (fun w => (P w ∨ w ∈ asgWrites loc blocking (.aligned [g])) ∨
              w ∈ asgWrites loc blocking (.aligned as)) =
              fun w => P w ∨ w ∈ asgWrites loc blocking (.aligned (g :: as)) := by
            intro as
            funext w
            simp only [asgWrites, List.flatMap_cons, List.flatMap_nil, List.append_nil, List.mem_append,
              or_assoc]
          obtain ⟨d1, d2, d3⟩ := ih c.ok (fun as x bs he => by
              obtain ⟨k1, k2⟩ := hg (g :: as) x bs (by rw [he]; rfl)
              refine ⟨?_, k2⟩
              have e := heq (as ++ [x])
              simp only [List.cons_append, List.nil_append] at k1 e ⊢
              rw [e]
              exact k1)
            (fun n hn => hle.net.nodes n (hno n hn))
            (fun n hn => ⟨hle.net.nodes n (hco n hn).1, by
              rw [hle.net.data n (hco n hn).1]; exact (hco n hn).2⟩) h
          refine ⟨fun l hl => ?_, hle.trans d3⟩
          cases gs with
          | nil =>
            rw [d1 rfl]
            cases hl
            exact c.ok
          | cons g' gs' =>
            have := d2 l (by simpa using hl)
            simp only [List.nil_append] at this
            rw [heq] at this
            exact this

/-! ### Statements -/

/-- What a statement does is allowed. -/
structure Fair (A : BEnv) (M C : NodeData → Prop) (P : Wr → Prop) (st : Stmt) : Prop where
  touch : ∀ d r Q, Touches M P st d r Q → A.Read d r Q
  ctrl : ∀ u v, Controls M C st u v → A.J .plain u v
  lit : ∀ loc u, Literal st loc u → A.J .plain u (.assignment loc)
  wr : ∀ w ∈ allWrites st, A.Wrt w

/-- The result of a statement. -/
structure Ran (A : BEnv) (M C : NodeData → Prop) (P : Wr → Prop) (st : Stmt) (s s' : Dfa) : Prop where
  ok : SOk A s' (marks M st) (conds C st) (fun w => P w ∨ w ∈ allWrites st)
  le : SLe s s'

theorem sound_reads {A : BEnv} (hA : BOk A) {M C : NodeData → Prop} {P : Wr → Prop} (rs : List Ref) :
    ∀ {s s' : Dfa}, SOk A s M C P → (∀ r ∈ rs, r.auto = false → ∀ d, M d → A.Read d r P) →
      s.noteRefs A.c true (rs.map fun r => ⟨false, r⟩) = .ok s' → SOk A s' M C P ∧ SLe s s' := by
  induction rs with
  | nil => intro s s' hs _ h; cases h; exact ⟨hs, SLe.refl _⟩
  | cons r rs ih =>
    intro s s' hs hr h
    rw [List.map_cons] at h
    unfold Dfa.noteRefs at h
    split at h
    · cases h
    · rename_i s1 h1
      have a : SOk A s1 M C P ∧ SLe s s1 := by
        unfold Dfa.noteRef at h1
        split at h1
        · cases h1; exact ⟨hs, SLe.refl _⟩
        split at h1
        · cases h1; exact ⟨hs, SLe.refl _⟩
        rename_i ha
        split at h1
        · rename_i hf; cases hf
        · obtain ⟨a1, a2, _⟩ := sound_read hA hs (hr r List.mem_cons_self (by simpa using ha)) h1
          exact ⟨a1, a2⟩
      obtain ⟨b1, b2⟩ := ih a.1 (fun x hx => hr x (List.mem_cons_of_mem _ hx)) h
      exact ⟨b1, a.2.trans b2⟩

theorem sound_assign {A : BEnv} (hA : BOk A) {M C : NodeData → Prop} {P : Wr → Prop} {loc : TextLoc}
    {blocking : Bool} {a : Asg} (hf : Fair A M C P (.assign loc blocking a)) {s s' : Dfa}
    (hs : SOk A s M C P) (h : s.assign A.c loc blocking a = .ok s') :
    Ran A M C P (.assign loc blocking a) s s' := by
  cases a with
  | legacy notes =>
    have hs1 : SOk A s M C (fun w => P w ∨ w ∈ asgWrites loc blocking (.legacy notes)) :=
      hs.weaken (fun _ h => h) (fun _ h => h) (fun _ h => .inl h)
    unfold Dfa.assign at h
    dsimp only at h
    split at h
    · cases h
    · rename_i s1 h1
      obtain ⟨a1, a2, a3⟩ := sound_startAssign hs1
        (fun u hu => hf.ctrl u _ (.assign (List.mem_singleton.2 rfl) hu)) h1
      have hok : AsgOk A loc blocking (fun w => P w ∨ w ∈ asgWrites loc blocking (.legacy notes))
          (fun r => ⟨false, r⟩ ∈ notes ∧ r.auto = false) (· ∈ targets (.legacy notes)) := by
        refine ⟨fun r hr => hf.touch _ _ _ (.note hr.1 hr.2), fun r hr => ?_⟩
        have hm : (⟨r.sym, r.bounds, loc, blocking⟩ : Wr) ∈ asgWrites loc blocking (.legacy notes) :=
          List.mem_map.2 ⟨r, hr, rfl⟩
        exact ⟨hf.wr _ hm, .inr hm⟩
      have b := sound_notes hA hok notes a1 a3 (fun x hx ha => by
        cases hw : x.write with
        | true =>
          rw [if_pos rfl]
          exact List.mem_map.2 ⟨x, List.mem_filter.2 ⟨hx, by simp [hw, ha]⟩, rfl⟩
        | false =>
          rw [if_neg (by simp)]
          refine ⟨?_, ha⟩
          rw [← hw]
          exact hx) h
      exact ⟨b.ok.weaken (fun d hd => .inl ⟨loc, rfl, hd⟩) (fun _ h => h.elim) (fun _ h => h),
        a2.trans b.le⟩
  | aligned segs =>
    have hsok : SegsOk A loc blocking C P segs := by
      rintro as g bs rfl
      have hg : g ∈ as ++ g :: bs := List.mem_append_right _ List.mem_cons_self
      refine ⟨⟨fun r ⟨x, hx, hr⟩ => hf.touch _ _ _ (.seg rfl hx hr), fun r hr => ?_⟩,
        fun v w l hm => hf.lit _ _ (.seg hg hm),
        fun u hu => hf.ctrl u _ (.assign (List.mem_map.2 ⟨g, hg, rfl⟩) hu)⟩
      have hm : ∀ gs, g ∈ gs → (⟨r.sym, r.bounds, g.loc, blocking⟩ : Wr) ∈
          asgWrites loc blocking (.aligned gs) := fun gs hgs =>
        List.mem_flatMap.2 ⟨g, hgs, List.mem_map.2 ⟨r, hr, rfl⟩⟩
      exact ⟨hf.wr _ (hm _ hg), .inr (hm _ (List.mem_append_right _ List.mem_cons_self))⟩
    obtain ⟨b1, b2, b3⟩ := sound_segments hA segs hs hsok (fun n hn => (hs.node n hn).1) hs.cond h
    by_cases hne : segs = []
    · have he := b1 hne
      subst he
      exact ⟨hs.weaken (fun d hd => .inr ⟨fun h => h hne, hd⟩) (fun d hd => ⟨fun h => h hne, hd⟩)
        (fun _ h => .inl h), SLe.refl _⟩
    · obtain ⟨l, hl⟩ : ∃ l, (segs.map (·.loc)).getLast? = some l := by
        cases hx : (segs.map (·.loc)).getLast? with
        | none => simp [hne] at hx
        | some l => exact ⟨l, rfl⟩
      exact ⟨(b2 l hl).weaken (fun d hd => .inl ⟨l, hl, hd⟩) (fun _ h => h.elim) (fun _ h => h), b3⟩

theorem sound_mergeNodes {A : BEnv} {s s' : Dfa} {M C : NodeData → Prop} {P : Wr → Prop}
    (hs : SOk A s M C P) {X : NodeData → Prop} {a b o : Option Nat}
    (ha : ∀ n, a = some n → n ∈ s.net.g.nodes ∧ X (s.net.data n))
    (hb : ∀ n, b = some n → n ∈ s.net.g.nodes ∧ X (s.net.data n))
    (hj : ∀ u, X u → A.J .plain u .merge) (h : s.mergeNodes a b = .ok (s', o)) :
    SOk A s' M C P ∧ SLe s s' ∧ s'.cur = s.cur ∧
      ∀ n, o = some n → n ∈ s'.net.g.nodes ∧ (X (s'.net.data n) ∨ s'.net.data n = .merge) := by
  unfold Dfa.mergeNodes at h
  split at h
  · rename_i x y
    split at h
    · split at h
      · cases h
      · rename_i s1 n h1
        split at h
        · cases h
        · rename_i s2 h2
          split at h
          · cases h
          · rename_i s3 h3
            cases h
            obtain ⟨a1, a2, a3, a4, a5⟩ := sound_node hs h1
            obtain ⟨hx1, hx2⟩ := ha x rfl
            obtain ⟨hy1, hy2⟩ := hb y rfl
            obtain ⟨b1, b2, b3, b4, b5⟩ := sound_plain a1 (by
              rw [a5, a2.net.data x hx1]; exact hj _ hx2) h2
            obtain ⟨c1, c2, c3, c4, c5⟩ := sound_plain b1 (by
              rw [b4, a5, a2.net.data y hy1]; exact hj _ hy2) h3
            refine ⟨c1, a2.trans (b2.trans c2), by rw [c3, b3, a3], ?_⟩
            rintro k hk
            cases hk
            exact ⟨by rw [c5, b5]; exact a4, .inr (by rw [c4, b4]; exact a5)⟩
    · cases h; exact ⟨hs, SLe.refl _, rfl, by intro n hn; cases hn⟩
  · cases h; exact ⟨hs, SLe.refl _, rfl, fun n hn => ⟨(ha n hn).1, .inl (ha n hn).2⟩⟩
  · cases h; exact ⟨hs, SLe.refl _, rfl, fun n hn => ⟨(hb n hn).1, .inl (hb n hn).2⟩⟩

/-- A second state of the analysis. -/
structure FOk (A : BEnv) (s : Dfa) (f : Flow) (M C : NodeData → Prop) (P : Wr → Prop) : Prop where
  drv : A.K.I (A.N s.net P) s.trk f.drv
  node : ∀ n, f.node = some n → n ∈ s.net.g.nodes ∧ M (s.net.data n)
  cond : ∀ n, f.cond = some n → n ∈ s.net.g.nodes ∧ C (s.net.data n)

theorem FOk.mono {A : BEnv} {s s' : Dfa} {f : Flow} {M M' C C' : NodeData → Prop} {P P' : Wr → Prop}
    (h : FOk A s f M C P) (hl : SLe s s') (hM : ∀ d, M d → M' d) (hC : ∀ d, C d → C' d)
    (hP : ∀ w, P w → P' w) : FOk A s' f M' C' P' :=
  ⟨A.K.mono hl.trk (n_mono hl.net hP) h.drv,
    fun n hn => ⟨hl.net.nodes n (h.node n hn).1, by
      rw [hl.net.data n (h.node n hn).1]; exact hM _ (h.node n hn).2⟩,
    fun n hn => ⟨hl.net.nodes n (h.cond n hn).1, by
      rw [hl.net.data n (h.cond n hn).1]; exact hC _ (h.cond n hn).2⟩⟩

theorem SOk.flow {A : BEnv} {s : Dfa} {M C : NodeData → Prop} {P : Wr → Prop} (h : SOk A s M C P) :
    FOk A s s.cur M C P := ⟨h.drv, h.node, h.cond⟩

/-- Another current state. -/
theorem SOk.with {A : BEnv} {s : Dfa} {M C M' C' : NodeData → Prop} {P P' : Wr → Prop}
    (h : SOk A s M C P) {f : Flow} (hf : FOk A s f M' C' P') : SOk A { s with cur := f } M' C' P' :=
  { h with drv := hf.drv, node := hf.node, cond := hf.cond }

theorem sound_join {A : BEnv} (hA : BOk A) {s s' : Dfa} {M C : NodeData → Prop} {P : Wr → Prop}
    (hs : SOk A s M C P) {f : Flow} (hf : FOk A s f M C P) (hM : ∀ u, M u → A.J .plain u .merge)
    (hC : ∀ u, C u → A.J .plain u .merge) (h : s.joinState f = .ok s') :
    SOk A s' (fun d => M d ∨ d = .merge) (fun d => C d ∨ d = .merge) P ∧ SLe s s' := by
  unfold Dfa.joinState at h
  split at h
  · unfold Dfa.mergeStates at h
    split at h
    · cases h
    · rename_i t' drv' hm
      obtain ⟨a1, a2, a3⟩ := disc_merge A.K (hA.adm _ _) hs.trk hs.drv hf.drv hm
      dsimp only at h
      split at h
      · cases h
      · rename_i s2 n h2
        split at h
        · cases h
        · rename_i s3 k h3
          cases h
          have hs1 : SOk A { s with trk := t', cur := { s.cur with drv := drv' } } M C P :=
            { hs with trk := a1, drv := a3 }
          obtain ⟨b1, b2, b3, b4⟩ := sound_mergeNodes hs1 (X := M) hs1.node hf.node hM h2
          obtain ⟨c1, c2, c3, c4⟩ := sound_mergeNodes b1 (X := C) (a := s2.cur.cond) (b := f.cond)
            b1.cond (fun n hn => ⟨b2.net.nodes n (hf.cond n hn).1, by
              rw [b2.net.data n (hf.cond n hn).1]; exact (hf.cond n hn).2⟩) hC h3
          refine ⟨{ c1 with node := ?_, cond := c4 }, ⟨b2.net.trans c2.net, a2.trans (b2.trk.trans c2.trk)⟩⟩
          intro x hx
          obtain ⟨g1, g2⟩ := b4 x hx
          exact ⟨c2.net.nodes x g1, by dsimp only; rw [c2.net.data x g1]; exact g2⟩
  · split at h
    · cases h
      exact ⟨(hs.with hf).weaken (fun _ h => .inl h) (fun _ h => .inl h) (fun _ h => h),
        NetLe.refl _, TrkLe.refl _⟩
    · cases h
      exact ⟨hs.weaken (fun _ h => .inl h) (fun _ h => .inl h) (fun _ h => h), SLe.refl _⟩

theorem sound_exec {A : BEnv} (hA : BOk A) (st : Stmt) : ∀ {M C : NodeData → Prop} {P : Wr → Prop}
    {s s' : Dfa}, Fair A M C P st → SOk A s M C P → s.exec A.c st = .ok s' → Ran A M C P st s s' := by
  induction st with
  | skip =>
    intro M C P s s' hf hs h
    cases h
    exact ⟨hs.weaken (fun _ h => h) (fun _ h => h) (fun _ h => .inl h), SLe.refl _⟩
  | reads rs =>
    intro M C P s s' hf hs h
    obtain ⟨a1, a2⟩ := sound_reads hA rs hs (fun r hr ha d hd => hf.touch _ _ _ (.reads hr ha hd)) h
    exact ⟨a1.weaken (fun _ h => h) (fun _ h => h) (fun _ h => .inl h), a2⟩
  | assign loc blocking a =>
    intro M C P s s' hf hs h
    exact sound_assign hA hf hs h
  | branch k loc =>
    intro M C P s s' hf hs h
    simp only [Dfa.exec, Dfa.branch] at h
    split at h
    · cases h
    · rename_i s1 n h1
      obtain ⟨a1, a2, a3, a4, a5⟩ := sound_node hs h1
      have a5 : s1.net.data n = branchData k loc := a5
      obtain ⟨b1, b2, b3⟩ := sound_update a1 a4 (by
        rw [a5]; exact fun u hu => hf.ctrl u _ (.branch hu)) h
      rw [a5] at b1
      exact ⟨b1.weaken (fun _ h => h) (fun _ h => h.2) (fun _ h => .inl h), a2.trans b2⟩
  | dead =>
    intro M C P s s' hf hs h
    cases h
    refine ⟨{ hs with drv := A.K.empty _ _, node := ?_, cond := ?_ }, NetLe.refl _, TrkLe.refl _⟩
    · intro n hn; cases hn
    · intro n hn; cases hn
  | seq a b iha ihb =>
    intro M C P s s' hf hs h
    unfold Dfa.exec at h
    split at h
    · cases h
    · rename_i s1 h1
      have r1 := iha ⟨fun d r Q ht => hf.touch d r Q (.left ht), fun u v hc => hf.ctrl u v (.left hc),
        fun loc u hl => hf.lit loc u (.left hl), fun w hw => hf.wr w (List.mem_append_left _ hw)⟩ hs h1
      have r2 := ihb ⟨fun d r Q ht => hf.touch d r Q (.right ht), fun u v hc => hf.ctrl u v (.right hc),
        fun loc u hl => hf.lit loc u (.right hl), fun w hw => hf.wr w (List.mem_append_right _ hw)⟩ r1.ok h
      refine ⟨r2.ok.weaken (fun _ h => h) (fun _ h => h) ?_, r1.le.trans r2.le⟩
      rintro w ((h | h) | h)
      · exact .inl h
      · exact .inr (List.mem_append_left _ h)
      · exact .inr (List.mem_append_right _ h)
  | choose f a b iha ihb =>
    intro M C P s s' hf hs h
    unfold Dfa.exec at h
    split at h
    · cases h
    · rename_i s1 h1
      split at h
      · cases h
      · rename_i s2 h2
        have r1 := iha ⟨fun d r Q ht => hf.touch d r Q (.first ht), fun u v hc => hf.ctrl u v (.first hc),
          fun loc u hl => hf.lit loc u (.first hl), fun w hw => hf.wr w (List.mem_append_left _ hw)⟩ hs h1
        have hs1 : SOk A { s1 with cur := s.cur } M C P :=
          r1.ok.with (hs.flow.mono r1.le (fun _ h => h) (fun _ h => h) (fun _ h => h))
        have r2 := ihb ⟨fun d r Q ht => hf.touch d r Q (.second ht),
          fun u v hc => hf.ctrl u v (.second hc), fun loc u hl => hf.lit loc u (.second hl),
          fun w hw => hf.wr w (List.mem_append_right _ hw)⟩ hs1 h2
        have hle : SLe s1 s2 := ⟨r2.le.net, r2.le.trk⟩
        have hP : ∀ w, (P w ∨ w ∈ allWrites a) → P w ∨ w ∈ allWrites (.choose f a b) := fun w h =>
          h.imp_right (List.mem_append_left _)
        have hP' : ∀ w, (P w ∨ w ∈ allWrites b) → P w ∨ w ∈ allWrites (.choose f a b) := fun w h =>
          h.imp_right (List.mem_append_right _)
        have f1 : FOk A s2 s1.cur (fun d => marks M a d ∨ marks M b d) (fun d => conds C a d ∨ conds C b d)
            (fun w => P w ∨ w ∈ allWrites (.choose f a b)) :=
          r1.ok.flow.mono hle (fun _ h => .inl h) (fun _ h => .inl h) hP
        have f2 : FOk A s2 s2.cur (fun d => marks M a d ∨ marks M b d) (fun d => conds C a d ∨ conds C b d)
            (fun w => P w ∨ w ∈ allWrites (.choose f a b)) :=
          r2.ok.flow.mono (SLe.refl _) (fun _ h => .inr h) (fun _ h => .inr h) hP'
        have hM : ∀ u, (marks M a u ∨ marks M b u) → A.J .plain u .merge := fun u hu => hf.ctrl _ _ (.nodes hu)
        have hC : ∀ u, (conds C a u ∨ conds C b u) → A.J .plain u .merge := fun u hu => hf.ctrl _ _ (.conds hu)
        have fin : SOk A s' (fun d => (marks M a d ∨ marks M b d) ∨ d = .merge)
            (fun d => (conds C a d ∨ conds C b d) ∨ d = .merge)
            (fun w => P w ∨ w ∈ allWrites (.choose f a b)) ∧ SLe s2 s' := by
          split at h
          · have hc := r2.ok.with f1
            obtain ⟨c1, c2⟩ := sound_join hA hc (f := s2.cur) ⟨f2.drv, f2.node, f2.cond⟩ hM hC h
            exact ⟨c1, c2.net, c2.trk⟩
          · have hc := r2.ok.with f2
            exact sound_join hA hc (f := s1.cur) f1 hM hC h
        refine ⟨fin.1.weaken ?_ ?_ (fun _ h => h), (r1.le.trans hle).trans fin.2⟩
        · rintro d ((h | h) | h)
          · exact .inl h
          · exact .inr (.inl h)
          · exact .inr (.inr h)
        · rintro d ((h | h) | h)
          · exact .inl h
          · exact .inr (.inl h)
          · exact .inr (.inr h)

end Verif.Proofs

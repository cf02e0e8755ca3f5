import Verif.Proofs.SoundFlow
import Verif.Proofs.Build

/-! Helper lemmas: every edge made by the blocks of a design and by resolution is justified. -/
namespace Verif.Proofs
open Verif.Spec Verif.Model Verif.Props

/-- The edges that are justified by the events of a design. -/
def jus (E : TravEnv) (es : List Event) (G : Grain) : Ask → NodeData → NodeData → Prop
  | .plain, u, v => Blank E es G u v
  | .bit (path, i), u, v => Justified E es G path i u v
  | .clock k, u, v => Clocking E es G k u v

/-- The reads in the queue, with their kind. -/
def WantsAs (E : TravEnv) (es : List Event) (G : Grain) (k : EdgeKind) (y : Nat) (i : Int) (d : NodeData) : Prop :=
  Wants E es G y i d ∧ (k ≠ .none → TimedBy E es G k y d)

/-- The nodes that are recorded as drivers of bit `i` of `y`. -/
inductive Rcd (E : TravEnv) (es : List Event) (G : Grain) (y : Nat) (i : Int) : NodeData → Prop
  | assign {b : Deferred} {loc : TextLoc} : b ∈ blocksOf es → ¬ Registers b → G.final b.stmt y i loc →
    Rcd E es G y i (.assignment loc)
  | input {p : PortDecl} {r : PortDriver} {b : BitRange} : .port p ∈ es → p.inner = some y →
    r ∈ p.drivers → r.input = true → (r.lo : Int) ≤ b.left → b.left ≤ b.right → b.right ≤ r.hi →
    G.near b i → Rcd E es G y i (.port (E.D.ref y).name (E.D.ref y).path (E.D.ref y).loc p.dir b)
  | output {k : Conn} {s : Nat} {f : Option Nat} {j : Int} {d : NodeData} : .connect k ∈ es →
    k.output = true → k.formal = .port s f → StandsAt E es G s d j → G.tie k s j y i → Rcd E es G y i d

theorem Rcd.offers {E : TravEnv} {es : List Event} {G : Grain} {y : Nat} {i : Int} {d : NodeData}
    (h : Rcd E es G y i d) : Offers E es G y i d := by
  cases h with
  | assign h1 h2 h3 => exact .assign h1 h2 h3
  | input h1 h2 h3 h4 h5 h6 h7 h8 => exact .input h1 h2 h3 h4 h5 h6 h7 h8
  | output h1 h2 h3 h4 h5 => exact .output h1 h2 h3 h4 h5

/-- The recorded drivers of a graph. -/
def RcdN (E : TravEnv) (es : List Event) (G : Grain) (net : NetGraph) (y : Nat) (p : Int)
    (o : Option Nat) : Prop := ∃ n ∈ net.g.nodes, o = some n ∧ Rcd E es G y p (net.data n)

/-- Nodes of writes of a block. -/
def WrN (G : Grain) (b : Deferred) (net : NetGraph) (y : Nat) (p : Int) (o : Option Nat) : Prop :=
  ∃ n ∈ net.g.nodes, o = some n ∧ ∃ w ∈ allWrites b.stmt, w.sym = y ∧ G.near w.bounds p ∧
    net.data n = .assignment w.loc

/-- Nodes of the final writes of a block. -/
def FinN (G : Grain) (b : Deferred) (net : NetGraph) (y : Nat) (p : Int) (o : Option Nat) : Prop :=
  ∃ n ∈ net.g.nodes, o = some n ∧ ∃ loc, net.data n = .assignment loc ∧ G.final b.stmt y p loc

/-- The grain does not distinguish bits. -/
def Loose (G : Grain) : Prop :=
  (∀ b i j, G.near b i → G.near b j) ∧ (∀ k s j y i i', G.tie k s j y i → G.tie k s j y i') ∧
    ∀ st y i i' loc, G.final st y i loc → G.final st y i' loc

/-- What is known of the driver maps fits the grain. -/
structure GOk (E : TravEnv) (es : List Event) (G : Grain) (K : Disc) : Prop where
  sub : ∀ b i, InRng b i → G.near b i
  adm : ∀ N, (Loose G → ∀ y p q d, N y p d → N y q d) → K.adm N
  fit : ∀ b ∈ blocksOf es, ∀ w ∈ allWrites b.stmt, K.fit w.sym w.bounds
  ends : ∀ b ∈ blocksOf es, ∀ s, BldOk s → ∀ d,
    dfaOf ⟨E.D, s.vars, none⟩ { net := s.net, queue := s.queue } b = .ok d →
    K.I (WrN G b d.net) d.trk d.cur.drv → K.I (FinN G b d.net) d.trk d.cur.drv

theorem rcd_adm {E : TravEnv} {es : List Event} {G : Grain} {K : Disc} (hG : GOk E es G K)
    (net : NetGraph) : K.adm (RcdN E es G net) := by
  refine hG.adm _ fun ⟨l1, l2, l3⟩ y p q d ⟨n, h1, h2, h3⟩ => ⟨n, h1, h2, ?_⟩
  generalize net.data n = u at h3
  cases h3 with
  | assign g1 g2 g3 => exact .assign g1 g2 (l3 _ _ _ _ _ g3)
  | input g1 g2 g3 g4 g5 g6 g7 g8 => exact .input g1 g2 g3 g4 g5 g6 g7 (l1 _ _ _ g8)
  | output g1 g2 g3 g4 g5 => exact .output g1 g2 g3 g4 (l2 _ _ _ _ _ _ g5)

theorem wr_adm {E : TravEnv} {es : List Event} {G : Grain} {K : Disc} (hG : GOk E es G K)
    (b : Deferred) (net : NetGraph) : K.adm (WrN G b net) :=
  hG.adm _ fun ⟨l1, _, _⟩ _ _ _ _ ⟨n, h1, h2, w, h3, h4, h5, h6⟩ =>
    ⟨n, h1, h2, w, h3, h4, l1 _ _ _ h5, h6⟩

theorem fin_adm {E : TravEnv} {es : List Event} {G : Grain} {K : Disc} (hG : GOk E es G K)
    (b : Deferred) (net : NetGraph) : K.adm (FinN G b net) :=
  hG.adm _ fun ⟨_, _, l3⟩ _ _ _ _ ⟨n, h1, h2, loc, h3, h4⟩ => ⟨n, h1, h2, loc, h3, l3 _ _ _ _ _ h4⟩

theorem rcd_mono {E : TravEnv} {es : List Event} {G : Grain} {a b : NetGraph} (h : NetLe a b) :
    ∀ y p d, RcdN E es G a y p d → RcdN E es G b y p d := by
  rintro y p d ⟨n, hn, rfl, h1⟩
  exact ⟨n, h.nodes n hn, rfl, by rw [h.data n hn]; exact h1⟩

theorem fin_mono {G : Grain} {bl : Deferred} {a b : NetGraph} (h : NetLe a b) :
    ∀ y p d, FinN G bl a y p d → FinN G bl b y p d := by
  rintro y p d ⟨n, hn, rfl, h1⟩
  exact ⟨n, h.nodes n hn, rfl, by rw [h.data n hn]; exact h1⟩

/-- The builder between blocks. -/
structure SB (E : TravEnv) (es : List Event) (G : Grain) (K : Disc) (s : Bld) : Prop where
  ok : BldOk s
  just : Just (jus E es G) s.net
  trk : TrkOk s.trk
  drv : K.I (RcdN E es G s.net) s.trk s.drv
  vars : ∀ y, ∀ e ∈ s.vars y, Stands E es G y (s.net.data e.val)
  queue : ∀ x ∈ s.queue, ∀ n, x.node = some n → ∀ i, InRng x.bounds i →
    WantsAs E es G x.kind x.sym i (s.net.data n)

theorem sameBits_of {a b : BitRange} (h1 : a.lower = b.lower) (h2 : a.upper = b.upper) : SameBits a b := by
  intro i; rw [inRng_iff, inRng_iff, h1, h2]

/-- A node found in the table. -/
theorem lookup_stands {E : TravEnv} {es : List Event} {G : Grain} {s : Bld} (hok : BldOk s)
    (hv : ∀ y, ∀ e ∈ s.vars y, Stands E es G y (s.net.data e.val)) {y n : Nat} {b : BitRange}
    (h : s.vars.lookup y b = some n) : n ∈ s.net.g.nodes ∧ Stands E es G y (s.net.data n) ∧
      ∃ nb, (s.net.data n).bounds = some nb ∧ SameBits nb b := by
  obtain ⟨e, he, rfl, hb⟩ := varLookup_mem h
  obtain ⟨h1, nb, h2, h3, h4⟩ := hok.vars y e he
  refine ⟨h1, hv y e he, nb, h2, sameBits_of ?_ ?_⟩
  all_goals
    subst hb
    have := bounds_le nb
    simp only [h3, h4] at this ⊢
    first
      | simp only [BitRange.lower]; omega
      | simp only [BitRange.upper]; omega

/-- The port node for a range has all of it. -/
theorem portNodeFor_stands {E : TravEnv} {es : List Event} {G : Grain} {s : Bld} (hok : BldOk s)
    (hv : ∀ y, ∀ e ∈ s.vars y, Stands E es G y (s.net.data e.val)) {q n : Nat} {b : BitRange}
    (h : portNodeFor s q b = some n) {i : Int} (hi : InRng b i) : StandsAt E es G q (s.net.data n) i := by
  obtain ⟨e, he, h1⟩ := portNodeFor_mem h
  refine ⟨h1 ▸ hv q e he, ?_⟩
  unfold portNodeFor at h
  split at h
  · rename_i m hm
    cases h
    obtain ⟨_, _, nb, h2, h3⟩ := lookup_stands hok hv hm
    exact ⟨nb, h2, (h3 i).2 hi⟩
  · have hp := List.find?_some h
    split at hp
    · rename_i nb hnb
      simp only [BitRange.containsRange, Bool.and_eq_true, decide_eq_true_eq] at hp
      have := (inRng_iff _ _).1 hi
      exact ⟨nb, hnb, (inRng_iff _ _).2 ⟨by omega, by omega⟩⟩
    · cases hp

/-! ### The analysis of a block -/

/-- The setting of a block. -/
def blockEnv (E : TravEnv) (es : List Event) (G : Grain) (K : Disc) (vars : VarTab) (b : Deferred) : BEnv where
  c := ⟨E.D, vars, none⟩
  K := K
  near := G.near
  J := jus E es G
  Read := ReadsIn b.stmt
  T := WantsAs E es G
  V := Stands E es G
  Wrt w := w ∈ allWrites b.stmt

theorem blockEnv_ok {E : TravEnv} {es : List Event} {G : Grain} {K : Disc} (hG : GOk E es G K)
    (vars : VarTab) {b : Deferred} (hb : b ∈ blocksOf es) : BOk (blockEnv E es G K vars b) where
  ext := rfl
  sub := hG.sub
  adm net P := hG.adm _ fun ⟨l1, _, _⟩ _ _ _ _ ⟨n, h1, h2, w, h3, h4, h5, h6, h7⟩ =>
    ⟨n, h1, h2, w, h3, h4, h5, l1 _ _ _ h6, h7⟩
  fit := hG.fit b hb
  inside h1 h2 h3 h4 h5 h6 h7 := .inside hb h1 h2 h3 h4 h5 h6 h7 rfl
  want h1 h2 := ⟨.read hb h1 rfl h2, fun h => absurd rfl h⟩
  modport h1 h2 h3 h4 h5 h6 h7 := .between rfl (.modport h2 h3 h4 h5 h6) (.read hb h1 rfl h7)

theorem block_fair {E : TravEnv} {es : List Event} {G : Grain} {K : Disc} {vars : VarTab} {b : Deferred}
    (hb : b ∈ blocksOf es) : Fair (blockEnv E es G K vars b) noData noData (fun _ => False) b.stmt where
  touch _ _ _ h := h
  ctrl _ _ h := .control hb h
  lit _ _ h := .literal hb h
  wr _ h := h

theorem start_sound {E : TravEnv} {es : List Event} {G : Grain} {K : Disc} {s : Bld}
    (hs : SB E es G K s) (b : Deferred) :
    SOk (blockEnv E es G K s.vars b) { net := s.net, queue := s.queue } noData noData (fun _ => False) where
  reach := hs.ok.reach
  just := hs.just
  trk := trkOk_empty
  drv := K.empty _ _
  node n h := by cases h
  cond n h := by cases h
  nba x h := by cases h
  queue x hx n hn := ⟨hs.ok.pend x hx n hn, hs.queue x hx n hn⟩
  vars _ _ _ h := lookup_stands hs.ok hs.vars h

theorem nba_sound {E : TravEnv} {es : List Event} {G : Grain} {K : Disc} (hG : GOk E es G K)
    {b : Deferred} (hb : b ∈ blocksOf es) (xs : List PendL) : ∀ {s s' : Dfa},
      TrkOk s.trk → K.I (WrN G b s.net) s.trk s.cur.drv →
      (∀ x ∈ xs, ∃ n ∈ s.net.g.nodes, x.node = some n ∧ ∃ w ∈ allWrites b.stmt, w.sym = x.sym ∧
        w.bounds = x.bounds ∧ s.net.data n = .assignment w.loc) → s.processNba xs = .ok s' →
      TrkOk s'.trk ∧ K.I (WrN G b s'.net) s'.trk s'.cur.drv ∧ s'.net = s.net ∧ s'.queue = s.queue := by
  induction xs with
  | nil => intro s s' h1 h2 _ h; cases h; exact ⟨h1, h2, rfl, rfl⟩
  | cons x xs ih =>
    intro s s' h1 h2 hx h
    unfold Dfa.processNba at h
    split at h
    · cases h
    · rename_i t' drv' ha
      obtain ⟨n, hn, e1, w, w1, w2, w3, w4⟩ := hx x List.mem_cons_self
      have hall : ∀ p, InRng x.bounds p → WrN G b s.net x.sym p (some n) := fun p hp =>
        ⟨n, hn, rfl, w, w1, w2, hG.sub _ _ (w3 ▸ hp), w4⟩
      have hf := hG.fit b hb w w1
      rw [w2, w3] at hf
      obtain ⟨a1, _, a3⟩ := disc_add K (wr_adm hG b _) h1 h2 hf
        (by rw [e1]; exact K.one (hall _ (inRng_self _)) _)
        (by
          rintro d ⟨y, hy, rfl⟩ p hp
          rw [List.mem_singleton] at hy
          subst hy
          dsimp only
          rw [e1]
          exact hall p hp) ha
      exact ih (s := { s with trk := t', cur := { s.cur with drv := drv' } }) a1 a3
        (fun y hy => hx y (List.mem_cons_of_mem _ hy)) h

/-- The analysis of a block: its edges are justified and its drivers are its final writes. -/
theorem dfa_sound {E : TravEnv} {es : List Event} {G : Grain} {K : Disc} (hG : GOk E es G K) {s : Bld}
    (hs : SB E es G K s) {b : Deferred} (hb : b ∈ blocksOf es) {d : Dfa}
    (h : dfaOf ⟨E.D, s.vars, none⟩ { net := s.net, queue := s.queue } b = .ok d) :
    SB E es G K { s with net := d.net, queue := d.queue } ∧ NetLe s.net d.net ∧ TrkOk d.trk ∧
      K.I (FinN G b d.net) d.trk d.cur.drv := by
  have key : ∀ {s1 : Dfa}, ({ net := s.net, queue := s.queue } : Dfa).exec ⟨E.D, s.vars, none⟩ b.stmt = .ok s1 →
      Ran (blockEnv E es G K s.vars b) noData noData (fun _ => False) b.stmt
        { net := s.net, queue := s.queue } s1 :=
    fun h => sound_exec (blockEnv_ok hG s.vars hb) b.stmt (block_fair hb) (start_sound hs b) h
  have wr : ∀ {s1 : Dfa}, Ran (blockEnv E es G K s.vars b) noData noData (fun _ => False) b.stmt
        { net := s.net, queue := s.queue } s1 → K.I (WrN G b s1.net) s1.trk s1.cur.drv := by
    intro s1 r
    refine K.mono (TrkLe.refl _) ?_ r.ok.drv
    rintro y p o ⟨n, h1, h2, w, h3, _, h5, h6, h7⟩
    exact ⟨n, h1, h2, w, h3.elim False.elim id, h5, h6, h7⟩
  have sb : ∀ {s1 : Dfa}, Ran (blockEnv E es G K s.vars b) noData noData (fun _ => False) b.stmt
        { net := s.net, queue := s.queue } s1 → SB E es G K { s with net := s1.net, queue := s1.queue } := by
    intro s1 r
    have hle : NetLe s.net s1.net := r.le.net
    refine ⟨⟨r.ok.reach, ?_, ?_⟩, r.ok.just, hs.trk, K.mono (TrkLe.refl _) (rcd_mono hle) hs.drv, ?_, ?_⟩
    · intro y e he
      obtain ⟨h1, h2⟩ := hs.ok.vars y e he
      exact ⟨hle.nodes _ h1, by dsimp only; rw [hle.data _ h1]; exact h2⟩
    · intro x hx n hn; exact (r.ok.queue x hx n hn).1
    · intro y e he
      dsimp only
      rw [hle.data _ (hs.ok.vars y e he).1]
      exact hs.vars y e he
    · intro x hx n hn; exact (r.ok.queue x hx n hn).2
  cases b with
  | continuous loc a =>
    have r := key h
    exact ⟨sb r, r.le.net, r.ok.trk, hG.ends _ hb s hs.ok d h (wr r)⟩
  | procedural k body st =>
    have h0 := h
    simp only [dfaOf, Dfa.runBlock] at h
    split at h
    · cases h
    · rename_i s1 h1
      have r := key h1
      obtain ⟨a1, a2, a3, a4⟩ := nba_sound hG hb s1.nba r.ok.trk (wr r) (fun x hx => by
        obtain ⟨n, g1, g2, w, g3, g4, g5, g6⟩ := r.ok.nba x hx
        exact ⟨n, g1, g2, w, g3, g4, g5, g6⟩) h
      refine ⟨by rw [a3, a4]; exact sb r, by rw [a3]; exact r.le.net, a1, hG.ends _ hb s hs.ok d h0 a2⟩

/-! ### Sensitivity -/

theorem recordEvents_sound (es : List (Option SigEvent)) : ∀ {st st' : Bool × List SensEntry},
    recordEvents st es = .ok st' →
      (st'.1 = true ↔ st.1 = true ∨ ∃ e, some e ∈ es ∧ e.edge = .none) ∧
      (∀ x, x ∈ st'.2 ↔ x ∈ st.2 ∨ ∃ e, some e ∈ es ∧ e.edge ≠ .none ∧ e.signal = some x.signal ∧
        e.edge = x.kind) := by
  induction es with
  | nil => intro st st' h; cases h; simp
  | cons o es ih =>
    intro st st' h
    cases o with
    | none => cases h
    | some e =>
      obtain ⟨h1, h2⟩ := ih h
      refine ⟨h1.trans ?_, fun x => (h2 x).trans ?_⟩
      · unfold recordEvent
        split
        · rename_i he
          simp only [true_or, true_iff]
          exact .inr ⟨e, List.mem_cons_self, he⟩
        · rename_i he
          split <;>
          · simp only [List.mem_cons, Option.some.injEq]
            constructor
            · rintro (h | ⟨e', h, h'⟩)
              · exact .inl h
              · exact .inr ⟨e', .inr h, h'⟩
            · rintro (h | ⟨e', rfl | h, h'⟩)
              · exact .inl h
              · exact absurd h' he
              · exact .inr ⟨e', h, h'⟩
      · unfold recordEvent
        split
        · rename_i he
          simp only [List.mem_cons, Option.some.injEq]
          constructor
          · rintro (h | ⟨e', h, h'⟩)
            · exact .inl h
            · exact .inr ⟨e', .inr h, h'⟩
          · rintro (h | ⟨e', rfl | h, h'⟩)
            · exact .inl h
            · exact absurd he h'.1
            · exact .inr ⟨e', h, h'⟩
        · rename_i he
          split
          · rename_i s hs
            simp only [List.mem_cons, Option.some.injEq, List.mem_append, List.not_mem_nil, or_false]
            constructor
            · rintro ((h | rfl) | ⟨e', h, h'⟩)
              · exact .inl h
              · exact .inr ⟨e, .inl rfl, he, hs, rfl⟩
              · exact .inr ⟨e', .inr h, h'⟩
            · rintro (h | ⟨e', rfl | h, h1, h2, h3⟩)
              · exact .inl (.inl h)
              · refine .inl (.inr ?_)
                rw [hs] at h2
                cases x
                simp only [Option.some.injEq] at h2
                simp only [SensEntry.mk.injEq]
                exact ⟨h2.symm, h3.symm⟩
              · exact .inr ⟨e', h, h1, h2, h3⟩
          · rename_i hs
            simp only [List.mem_cons, Option.some.injEq]
            constructor
            · rintro (h | ⟨e', h, h'⟩)
              · exact .inl h
              · exact .inr ⟨e', .inr h, h'⟩
            · rintro (h | ⟨e', rfl | h, h1, h2, h3⟩)
              · exact .inl h
              · rw [hs] at h2; cases h2
              · exact .inr ⟨e', h, h1, h2, h3⟩

/-- A block has a sensitivity exactly if it makes registers. -/
theorem sens_registers {b : Deferred} {sens : List SensEntry} (h : sensOf b = .ok sens) :
    (sens ≠ [] ↔ Registers b) ∧ ∀ x ∈ sens, ∃ v ∈ blockEvents b, v.signal = some x.signal ∧ v.edge = x.kind := by
  have hno : blockEvents b = [] → ¬ Registers b := by
    rintro he ⟨⟨⟨e, h1, _⟩, _⟩, _⟩
    rw [he] at h1; cases h1
  have key : ∀ (es : List (Option SigEvent)) (st' : Bool × List SensEntry),
      recordEvents (false, []) es = .ok st' → blockEvents b = es.filterMap id →
      sens = (if st'.1 = true then [] else st'.2) →
      (sens ≠ [] ↔ Registers b) ∧ ∀ x ∈ sens, ∃ v ∈ blockEvents b, v.signal = some x.signal ∧ v.edge = x.kind := by
    intro es st' hr hb hs
    obtain ⟨h1, h2⟩ := recordEvents_sound es hr
    simp only [Bool.false_eq_true, false_or, List.not_mem_nil] at h1 h2
    have hm : ∀ e, e ∈ blockEvents b ↔ some e ∈ es := by
      intro e; rw [hb, List.mem_filterMap]; simp
    by_cases hc : st'.1 = true
    · rw [if_pos hc] at hs
      subst hs
      refine ⟨⟨fun h => absurd rfl h, ?_⟩, by simp⟩
      rintro ⟨⟨_, h3⟩, _⟩
      obtain ⟨e, h4, h5⟩ := h1.1 hc
      exact absurd h5 (h3 e ((hm e).2 h4))
    · rw [if_neg hc] at hs
      subst hs
      refine ⟨⟨fun hne => ?_, ?_⟩, fun x hx => ?_⟩
      · obtain ⟨x, hx⟩ := List.exists_mem_of_ne_nil _ hne
        obtain ⟨e, g1, g2, g3, g4⟩ := (h2 x).1 hx
        refine ⟨⟨⟨e, (hm e).2 g1, g2⟩, fun e' he' hn => hc (h1.2 ⟨e', (hm e').1 he', hn⟩)⟩, e, (hm e).2 g1, ?_⟩
        rw [g3]; simp
      · rintro ⟨⟨_, h3⟩, v, hv, hvs⟩
        cases hs : v.signal with
        | none => exact absurd hs hvs
        | some y =>
          exact List.ne_nil_of_mem ((h2 ⟨y, v.edge⟩).2 ⟨v, (hm v).1 hv, h3 v hv, hs, rfl⟩)
      · obtain ⟨e, g1, _, g3, g4⟩ := (h2 x).1 hx
        exact ⟨e, (hm e).2 g1, g3, g4⟩
  cases b with
  | continuous loc a => cases h; exact ⟨⟨fun h => absurd rfl h, fun h => absurd h (hno rfl)⟩, by simp⟩
  | procedural k body st =>
    simp only [sensOf, collectSensitivity] at h
    have hev : blockEvents (.procedural k body st) = eventsOf k body := rfl
    split at h
    · rename_i hk
      cases h
      refine ⟨⟨fun h => absurd rfl h, fun h => absurd h (hno ?_)⟩, by simp⟩
      rw [hev]
      obtain ⟨k1, k2⟩ := hk
      cases k <;> first | rfl | exact absurd rfl k1 | exact absurd rfl k2
    · rename_i hk
      have hk : k = .alwaysFF ∨ k = .always := by
        cases k <;> simp_all
      split at h
      · cases h
        exact ⟨⟨fun h => absurd rfl h, fun h => absurd h (hno (by rw [hev]; rcases hk with rfl | rfl <;> rfl))⟩,
          by simp⟩
      · cases h
        exact ⟨⟨fun h => absurd rfl h, fun h => absurd h (hno (by rw [hev]; rcases hk with rfl | rfl <;> rfl))⟩,
          by simp⟩
      · rename_i t
        split at h
        · cases h
        · rename_i comb result ht
          cases h
          cases t with
          | other =>
            cases ht
            exact ⟨⟨fun h => absurd rfl h,
              fun h => absurd h (hno (by rw [hev]; rcases hk with rfl | rfl <;> rfl))⟩, by simp⟩
          | signalEvent e =>
            exact key [some e] (comb, result) ht (by rw [hev]; rcases hk with rfl | rfl <;> rfl) rfl
          | eventList l =>
            exact key l (comb, result) ht (by rw [hev]; rcases hk with rfl | rfl <;> rfl) rfl

/-! ### Merging the drivers of a block -/

/-- What is known of a driven range of a block. -/
structure WinOk (G : Grain) (K : Disc) (b : Deferred) (net : NetGraph) (w : Driven) : Prop where
  fit : K.fit w.sym w.bounds
  full : K.full (FinN G b net) w.sym w.drivers
  all : ∀ d, HasN w.drivers d → ∀ p, InRng w.bounds p → FinN G b net w.sym p d

theorem WinOk.mono {G : Grain} {K : Disc} {b : Deferred} {net net' : NetGraph} {w : Driven}
    (h : WinOk G K b net w) (hl : NetLe net net') : WinOk G K b net' w :=
  ⟨h.fit, K.fullMono (fin_mono hl) h.full, fun d hd p hp => fin_mono hl _ _ _ (h.all d hd p hp)⟩

theorem WinOk.node {G : Grain} {K : Disc} {b : Deferred} {net : NetGraph} {w : Driven}
    (h : WinOk G K b net w) {x : DriverInfo} (hx : x ∈ w.drivers) {n : Nat} (hn : x.node = some n) :
    n ∈ net.g.nodes ∧ ∃ loc, net.data n = .assignment loc ∧
      ∀ p, InRng w.bounds p → G.final b.stmt w.sym p loc := by
  obtain ⟨m, h1, h2, loc, h3, _⟩ := h.all x.node ⟨x, hx, rfl⟩ _ (inRng_self _)
  rw [hn] at h2; cases h2
  refine ⟨h1, loc, h3, fun p hp => ?_⟩
  obtain ⟨m', _, g2, loc', g3, g4⟩ := h.all x.node ⟨x, hx, rfl⟩ p hp
  rw [hn] at g2; cases g2
  rw [h3] at g3; cases g3
  exact g4

/-- The dependencies on variables are justified. -/
theorem extra_sound {E : TravEnv} {es : List Event} {G : Grain} {K : Disc} {b : Deferred}
    (hb : b ∈ blocksOf es) {s : Bld} (hok : BldOk s)
    (hv : ∀ y, ∀ e ∈ s.vars y, Stands E es G y (s.net.data e.val)) {w : Driven} (hw : WinOk G K b s.net w) :
    ∀ d ∈ extraDeps E.D s w.sym w.bounds w.drivers, DepJust (jus E es G) s.net d := by
  intro d hd
  obtain ⟨⟨x, hx, hn⟩, h2, hk, h4⟩ := mem_extraDeps hd
  obtain ⟨_, loc, h5, h6⟩ := hw.node hx hn
  refine ⟨_, h2, fun h => absurd hk h, fun i hi => ?_⟩
  have hi := inRng_dep hi
  rw [h5]
  rcases h4 with ⟨g1, x', _, _, v, g2, g3, g4⟩ | ⟨g1, g2, g3⟩
  · obtain ⟨_, k1, nb, k2, k3⟩ := lookup_stands hok hv g3
    exact .modport hb rfl g1 (h6 _ (inRng_self _)) g2 k1 k2 k3 (g4 ▸ hi)
  · obtain ⟨_, k1, nb, k2, k3⟩ := lookup_stands hok hv g2
    rw [k2] at g3
    rw [g3] at hi
    exact .variable hb rfl g1 (h6 i ((k3 i).1 hi)) ⟨k1, nb, k2, hi⟩

/-- The dependencies of an output port are justified. -/
theorem hookup_sound {E : TravEnv} {es : List Event} {G : Grain} {s : Bld} (hok : BldOk s)
    (hv : ∀ y, ∀ e ∈ s.vars y, Stands E es G y (s.net.data e.val)) {y : Nat} {b : BitRange}
    {l : List DriverInfo} (hl : ∀ x ∈ l, ∀ n, x.node = some n → ∀ i, InRng b i →
      WritesTo E es G y i (s.net.data n)) :
    ∀ d ∈ hookupDeps E.D s y b l, DepJust (jus E es G) s.net d := by
  intro d hd
  unfold hookupDeps at hd
  split at hd
  · cases hd
  · rename_i q hq
    split at hd
    · cases hd
    · rename_i pn hpn
      obtain ⟨x, hx, h1, h2, h3, h4, hk⟩ := mem_driverDeps.1 hd
      refine ⟨_, h3, fun h => absurd hk h, fun i hi => ?_⟩
      have hi := inRng_dep hi
      rw [h4] at hi
      rw [h2]
      exact .outward rfl (hl x hx _ h1 i hi) hq (portNodeFor_stands hok hv hpn hi)

theorem addDeps_sound {E : TravEnv} {es : List Event} {G : Grain} {K : Disc} {s s' : Bld}
    (hs : SB E es G K s) {ds : List Dep} (hd : ∀ d ∈ ds, DepJust (jus E es G) s.net d)
    (h : s.addDeps ds = .ok s') : SB E es G K s' ∧ NetLe s.net s'.net := by
  unfold Bld.addDeps at h
  split at h
  · cases h
  · rename_i net' e
    cases h
    obtain ⟨h1, h2, h3, h4⟩ := just_deps ds hs.ok.reach hs.just hd e
    have hle := deps_grow hs.ok.reach e
    refine ⟨⟨⟨h1, ?_, ?_⟩, h2, hs.trk, K.mono (TrkLe.refl _) (rcd_mono hle) hs.drv, ?_, ?_⟩, hle⟩
    · dsimp only; rw [h3, h4]; exact hs.ok.vars
    · dsimp only; rw [h4]; exact hs.ok.pend
    · dsimp only; rw [h3]; exact hs.vars
    · dsimp only; rw [h3]; exact hs.queue

theorem comb_sound {E : TravEnv} {es : List Event} {G : Grain} {K : Disc} (hG : GOk E es G K)
    {b : Deferred} (hb : b ∈ blocksOf es) (hr : ¬ Registers b) {s s' : Bld} (hs : SB E es G K s)
    {w : Driven} (hw : WinOk G K b s.net w) (h : s.mergeComb E.D w.sym w.bounds w.drivers = .ok s') :
    SB E es G K s' ∧ NetLe s.net s'.net := by
  unfold Bld.mergeComb at h
  split at h
  · cases h
  · rename_i t' drv' ha
    dsimp only at h
    have himp : ∀ y p d, FinN G b s.net y p d → RcdN E es G s.net y p d := by
      rintro y p d ⟨n, h1, h2, loc, h3, h4⟩
      exact ⟨n, h1, h2, by rw [h3]; exact .assign hb hr h4⟩
    obtain ⟨a1, _, a3⟩ := disc_add K (rcd_adm hG _) hs.trk hs.drv hw.fit (K.fullMono himp hw.full)
      (fun d hd p hp => himp _ _ _ (hw.all d hd p hp)) ha
    have hs1 : SB E es G K { s with trk := t', drv := drv' } :=
      ⟨⟨hs.ok.reach, hs.ok.vars, hs.ok.pend⟩, hs.just, a1, a3, hs.vars, hs.queue⟩
    refine addDeps_sound (s := { s with trk := t', drv := drv' }) hs1 (fun d hd => ?_) h
    rcases List.mem_append.1 hd with hd | hd
    · refine hookup_sound hs1.ok hs1.vars (fun x hx n hn i hi => ?_) d hd
      obtain ⟨_, loc, h5, h6⟩ := hw.node hx hn
      dsimp only
      rw [h5]
      exact .assign hb hr (h6 i hi)
    · exact extra_sound hb hs1.ok hs1.vars (w := w) hw d hd

theorem seq_sound {E : TravEnv} {es : List Event} {G : Grain} {K : Disc} (hG : GOk E es G K)
    {b : Deferred} (hb : b ∈ blocksOf es) (hr : Registers b) {s s' : Bld} (hs : SB E es G K s)
    {w : Driven} (hw : WinOk G K b s.net w) {sens : List SensEntry}
    (hse : ∀ x ∈ sens, ∃ v ∈ blockEvents b, v.signal = some x.signal ∧ v.edge = x.kind)
    (h : s.mergeSeq E.D sens w.sym w.bounds w.drivers = .ok s') :
    SB E es G K s' ∧ NetLe s.net s'.net := by
  unfold Bld.mergeSeq at h
  split at h
  · cases h
  · rename_i s1 st h1
    unfold Bld.createState at h1
    dsimp only at h1
    split at h1
    · cases h1
    · rename_i net' e
      cases h1
      dsimp only at h
      obtain ⟨a1, a2, a3, a4, a5⟩ := just_addNode hs.ok.reach hs.just e
      have hreg : RegOf E G b w.sym (net'.data s.net.g.nextNode) := by
        rw [a4]
        refine .mk hr fun p hp => ?_
        obtain ⟨d, n, _, _, loc, _, g⟩ := K.some (fin_adm hG b _) hw.full (fun d hd => hw.all d hd p hp)
        exact ⟨loc, g⟩
      have hnew : s.net.g.nextNode ∈ net'.g.nodes := by rw [a5]; simp
      have hs2 : SB E es G K ⟨net', s.vars.insert w.sym w.bounds s.net.g.nextNode, s.trk, s.drv,
          s.queue ++ clockReads E.D sens s.net.g.nextNode⟩ := by
        refine ⟨⟨a1, ?_, ?_⟩, a2, hs.trk, K.mono (TrkLe.refl _) (rcd_mono a3) hs.drv, ?_, ?_⟩
        · intro y x hx
          rcases varInsert_mem.1 hx with hx | ⟨rfl, rfl⟩
          · obtain ⟨g1, g2⟩ := hs.ok.vars y x hx
            exact ⟨a3.nodes _ g1, by dsimp only; rw [a3.data _ g1]; exact g2⟩
          · exact ⟨hnew, w.bounds, by dsimp only; rw [a4]; rfl, rfl, rfl⟩
        · intro x hx n hn
          rcases List.mem_append.1 hx with hx | hx
          · exact a3.nodes n (hs.ok.pend x hx n hn)
          · obtain ⟨_, _, _, rfl⟩ := mem_clockReads.1 hx
            cases hn
            exact hnew
        · intro y x hx
          rcases varInsert_mem.1 hx with hx | ⟨rfl, rfl⟩
          · dsimp only
            rw [a3.data _ (hs.ok.vars y x hx).1]
            exact hs.vars y x hx
          · exact .register hb hreg
        · intro x hx n hn i hi
          dsimp only
          rcases List.mem_append.1 hx with hx | hx
          · rw [a3.data _ (hs.ok.pend x hx n hn)]
            exact hs.queue x hx n hn i hi
          · obtain ⟨v, hv, hw0, rfl⟩ := mem_clockReads.1 hx
            cases hn
            obtain ⟨ev, h2, h3, h4⟩ := hse v hv
            have := (inRng_iff _ _).1 hi
            simp only [BitRange.lower, BitRange.upper] at this
            exact ⟨.clock hb hreg h2 h3 (by omega) (by dsimp only; omega), fun _ => .mk hb hreg h2 h3 h4⟩
      have hw2 := hw.mono a3
      have hkey := addDeps_sound hs2 (fun d hd => by
        rcases List.mem_append.1 hd with hd | hd
        · rcases List.mem_append.1 hd with hd | hd
          · obtain ⟨x, hx, g1, g2, g3, g4, hk⟩ := mem_driverDeps.1 hd
            obtain ⟨_, loc, h5, h6⟩ := hw2.node hx g1
            refine ⟨_, g3, fun h => absurd hk h, fun i hi => ?_⟩
            have hi := inRng_dep hi
            rw [g4] at hi
            dsimp only
            rw [h5, g2]
            exact .store hb rfl (h6 i hi) hreg (by rw [a4]; rfl) hi
          · refine hookup_sound hs2.ok hs2.vars (fun x hx n hn i hi => ?_) d hd
            rw [List.mem_singleton] at hx
            subst hx
            cases hn
            exact .register hb hreg (nb := w.bounds) (by dsimp only; rw [a4]; rfl) hi
        · exact extra_sound hb hs2.ok hs2.vars (w := w) hw2 d hd) h
      exact ⟨hkey.1, a3.trans hkey.2⟩

theorem merge_sound {E : TravEnv} {es : List Event} {G : Grain} {K : Disc} (hG : GOk E es G K)
    {b : Deferred} (hb : b ∈ blocksOf es) {sens : List SensEntry} (hso : sensOf b = .ok sens)
    (ws : List Driven) : ∀ {s s' : Bld}, SB E es G K s → (∀ w ∈ ws, WinOk G K b s.net w) →
      s.mergeDrivers E.D sens ws = .ok s' → SB E es G K s' ∧ NetLe s.net s'.net := by
  obtain ⟨h1, h2⟩ := sens_registers hso
  induction ws with
  | nil => intro s s' hs _ h; cases h; exact ⟨hs, NetLe.refl _⟩
  | cons w ws ih =>
    intro s s' hs hw h
    unfold Bld.mergeDrivers at h
    split at h
    · cases h
    · rename_i s1 hs1
      have a : SB E es G K s1 ∧ NetLe s.net s1.net := by
        split at hs1
        · rename_i he
          refine comb_sound hG hb (fun hr => ?_) hs (hw w List.mem_cons_self) hs1
          exact h1.2 hr (by simpa using he)
        · rename_i he
          exact seq_sound hG hb (h1.1 (by simpa using he)) hs (hw w List.mem_cons_self) h2 hs1
      obtain ⟨b1, b2⟩ := ih a.1 (fun v hv => (hw v (List.mem_cons_of_mem _ hv)).mono a.2) h
      exact ⟨b1, a.2.trans b2⟩

/-! ### All blocks -/

theorem block_sound {E : TravEnv} {es : List Event} {G : Grain} {K : Disc} (hG : GOk E es G K)
    {ord : Tracker → List (Nat × Nat)} (hv : Visits ord) {b : Deferred} (hb : b ∈ blocksOf es)
    {s s' : Bld} (hs : SB E es G K s) (h : s.handleBlock E.D ord b = .ok s') : SB E es G K s' := by
  rw [handleBlock_eq] at h
  split at h
  · cases h
  · rename_i sens h1
    split at h
    · cases h
    · rename_i d h2
      obtain ⟨a1, a2, a3, a4⟩ := dfa_sound hG hs hb h2
      unfold Bld.mergeBlock at h
      split at h
      · cases h
      · rename_i ws h3
        refine (merge_sound hG hb h1 ws a1 (fun w hw => ?_) h).1
        obtain ⟨g1, g2, g3⟩ := disc_driven K (fin_adm hG b _) a3 a4 (ord d.trk)
          (fun p hp => (hv d.trk).mem_iff.1 hp) h3 w hw
        exact ⟨g1, g2, g3⟩

theorem blocks_sound {E : TravEnv} {es : List Event} {G : Grain} {K : Disc} (hG : GOk E es G K)
    {ord : Tracker → List (Nat × Nat)} (hv : Visits ord) (bs : List Deferred) : ∀ {s s' : Bld},
      (∀ b ∈ bs, b ∈ blocksOf es) → SB E es G K s → s.runBlocks E.D ord bs = .ok s' → SB E es G K s' := by
  induction bs with
  | nil => intro s s' _ hs h; cases h; exact hs
  | cons b bs ih =>
    intro s s' hb hs h
    unfold Bld.runBlocks at h
    split at h
    · cases h
    · rename_i s1 h1
      exact ih (fun x hx => hb x (List.mem_cons_of_mem _ hx))
        (block_sound hG hv (hb b List.mem_cons_self) hs h1) h

/-! ### Resolution -/

theorem emit_sound {E : TravEnv} {es : List Event} {G : Grain} {K : Disc} (hG : GOk E es G K) {s : Bld}
    (hs : SB E es G K s) {p : Pending} (hp : p ∈ s.queue) {ds : List Dep}
    (h : emitDeps (s.ctx E.D) p = .ok ds) : ∀ d ∈ ds, DepJust (jus E es G) s.net d := by
  intro d hd
  unfold emitDeps at h
  split at h
  · cases h; cases hd
  · rename_i n hn
    split at h
    · rename_i v hv
      cases h
      rw [List.mem_singleton] at hd
      subst hd
      obtain ⟨_, k1, nb, k2, k3⟩ := lookup_stands hs.ok hs.vars hv
      refine ⟨_, rfl, fun hk => ⟨p.sym, _, .node ⟨k1, nb, k2, (k3 _).2 (inRng_self _)⟩,
        (hs.queue p hp n hn _ (inRng_self _)).2 hk⟩, fun i hi => ?_⟩
      have hi := inRng_dep hi
      exact .between rfl (.node ⟨k1, nb, k2, (k3 i).2 hi⟩) (hs.queue p hp n hn i hi).1
    · split at h
      · cases h
      · rename_i ivs hiv
        cases h
        obtain ⟨x, hx, hd⟩ := List.mem_flatMap.1 hd
        unfold intervalDeps at hd
        split at hd
        · cases hd
        · rename_i eb heb
          obtain ⟨a, ha, hd⟩ := List.mem_filterMap.1 hd
          obtain ⟨k, hk, rfl⟩ := Option.map_eq_some_iff.1 hd
          refine ⟨_, rfl, fun hk' => ?_, fun i hi => ?_⟩
          · have hi := (inRng_intersection heb _).1 (inRng_self _)
            obtain ⟨m, _, g2, g3⟩ := disc_intervals K (rcd_adm hG _) hs.trk hs.drv hiv x hx (some k)
              ⟨a, ha, hk⟩ _ hi.1
            cases g2
            exact ⟨p.sym, _, g3.offers, (hs.queue p hp n hn _ hi.2).2 hk'⟩
          have hi := (inRng_intersection heb i).1 (inRng_dep hi)
          obtain ⟨m, _, g2, g3⟩ := disc_intervals K (rcd_adm hG _) hs.trk hs.drv hiv x hx (some k)
            ⟨a, ha, hk⟩ i hi.1
          cases g2
          exact .between rfl g3.offers (hs.queue p hp n hn i hi.2).1

theorem resolve_sound {E : TravEnv} {es : List Event} {G : Grain} {K : Disc} (hG : GOk E es G K) {s : Bld}
    (hs : SB E es G K s) {net : NetGraph} (h : resolveSequential (s.ctx E.D) s.net s.queue = .ok net) :
    Reachable net ∧ Just (jus E es G) net := by
  have key : ∀ (q : List Pending), (∀ p ∈ q, p ∈ s.queue) → ∀ ds, emitAll (s.ctx E.D) q = .ok ds →
      ∀ d ∈ ds, DepJust (jus E es G) s.net d := by
    intro q
    induction q with
    | nil => intro _ ds h d hd; cases h; cases hd
    | cons p q ih =>
      intro hq ds h d hd
      unfold emitAll at h
      split at h
      · cases h
      · rename_i ds1 h1
        split at h
        · cases h
        · rename_i ds2 h2
          cases h
          rcases List.mem_append.1 hd with hd | hd
          · exact emit_sound hG hs (hq p List.mem_cons_self) h1 d hd
          · exact ih (fun x hx => hq x (List.mem_cons_of_mem _ hx)) _ h2 d hd
  unfold resolveSequential at h
  split at h
  · cases h
  · rename_i ds hds
    split at h
    · cases h
    · rename_i net' e
      cases h
      obtain ⟨h1, h2, _⟩ := just_deps ds hs.ok.reach hs.just (key _ (fun _ h => h) ds hds) e
      exact ⟨h1, h2⟩

/-- Phases 2 to 4. -/
theorem build_sound {E : TravEnv} {es : List Event} {G : Grain} {K : Disc} (hG : GOk E es G K)
    {ord : Tracker → List (Nat × Nat)} (hv : Visits ord) {bs : List Deferred}
    (hb : ∀ b ∈ bs, b ∈ blocksOf es) {s : Bld} (hs : SB E es G K s) {net : NetGraph}
    (h : s.build E.D ord bs = .ok net) : Reachable net ∧ Just (jus E es G) net := by
  unfold Bld.build at h
  split at h
  · cases h
  · rename_i s1 h1
    exact resolve_sound hG (blocks_sound hG hv bs hb hs h1) h

end Verif.Proofs

import Verif.Spec.Traverse
import Verif.Proofs.SoundNet
import Verif.Proofs.Build
import Verif.Props.PortSlice
import Verif.Props.Cuts
import Verif.Props.Glob

/-! Helper lemmas for Phase 1: the traversal as a walk over a list of events, and what each event
does to the builder. -/
namespace Verif.Proofs
open Verif.Spec Verif.Model Verif.Props

/-! ### The traversal is a walk over the events -/

/-- What the traversal does for one event. -/
def Col.step (E : TravEnv) (c : Col) : Event → Except Fault Col
  | .port p => c.materialize E p
  | .variable sym ds => c.variables E sym ds
  | .block b => .ok { c with blocks := c.blocks ++ [b] }
  | .box path => .ok { c with boxes := c.boxes ++ [path] }
  | .cuts k => .ok (c.recordCut E k)
  | .connect k => c.connect E k

/-- The same for several events. -/
def Col.steps (E : TravEnv) (c : Col) : List Event → Except Fault Col
  | [] => .ok c
  | v :: vs =>
    match Col.step E c v with
    | .error e => .error e
    | .ok c1 => Col.steps E c1 vs

theorem steps_append (E : TravEnv) (l r : List Event) : ∀ c, Col.steps E c (l ++ r) =
    match Col.steps E c l with
    | .error e => .error e
    | .ok c1 => Col.steps E c1 r := by
  induction l with
  | nil => intro c; rfl
  | cons v l ih =>
    intro c
    simp only [List.cons_append, Col.steps]
    cases Col.step E c v with
    | error e => rfl
    | ok c1 => exact ih c1

theorem steps_cuts (E : TravEnv) (ks : List Conn) : ∀ c,
    Col.steps E c (ks.map .cuts) = .ok (c.recordCuts E ks) := by
  induction ks with
  | nil => intro c; rfl
  | cons k ks ih => intro c; simp only [List.map_cons, Col.steps, Col.step, Col.recordCuts]; exact ih _

theorem steps_connects (E : TravEnv) (ks : List Conn) : ∀ c,
    Col.steps E c (ks.map .connect) = c.connects E ks := by
  induction ks with
  | nil => intro c; rfl
  | cons k ks ih =>
    intro c
    simp only [List.map_cons, Col.steps, Col.step, Col.connects]
    cases c.connect E k with
    | error e => rfl
    | ok c1 => exact ih c1

theorem steps_boxPorts (E : TravEnv) (ms : List Member) : ∀ c,
    Col.steps E c ((portsOf ms).map .port) = c.boxPorts E ms := by
  induction ms with
  | nil => intro c; rfl
  | cons m ms ih =>
    intro c
    cases m with
    | port p =>
      simp only [portsOf, List.map_cons, Col.steps, Col.step, Col.boxPorts]
      cases c.materialize E p with
      | error e => rfl
      | ok c1 => exact ih c1
    | «variable» s i d => simp only [portsOf, Col.boxPorts]; exact ih c
    | block b => simp only [portsOf, Col.boxPorts]; exact ih c
    | group u l => simp only [portsOf, Col.boxPorts]; exact ih c
    | inst u d p l k => simp only [portsOf, Col.boxPorts]; exact ih c

mutual
theorem visit_steps {E : TravEnv} {boxed : Str → Str → Bool} (hb : DecidesBoxes E.opts.boxes boxed) :
    ∀ (m : Member) (c : Col), c.visit E m = Col.steps E c (events boxed E.opts.propCuts m)
  | .port p, c => by
    simp only [Col.visit, events, Col.steps, Col.step]
    cases c.materialize E p <;> rfl
  | .variable s i ds, c => by
    cases i with
    | false => simp [Col.visit, events, Col.steps]
    | true =>
      simp only [Col.visit, events, if_true, Col.steps, Col.step]
      cases c.variables E s ds <;> rfl
  | .block b, c => by simp [Col.visit, events, Col.steps, Col.step]
  | .group u ms, c => by
    cases u with
    | true => simp [Col.visit, events, Col.steps]
    | false => simp only [Col.visit, events, Bool.false_eq_true, if_false]; exact visitAll_steps hb ms c
  | .inst u d p ms ks, c => by
    cases u with
    | true => simp [Col.visit, events, Col.steps]
    | false =>
      have h0 : Col.steps E c (if E.opts.propCuts then ks.map .cuts else []) =
          .ok (if E.opts.propCuts then c.recordCuts E ks else c) := by
        cases E.opts.propCuts with
        | true => simp only [if_true]; exact steps_cuts E ks c
        | false => rfl
      obtain ⟨b, h1, h2⟩ := blackBox_exact E.opts.boxes d p
      have hbb : boxed d p = b := by
        have := hb d p
        rw [Bool.eq_iff_iff, this, h2]
        rfl
      simp only [Col.visit, events, Bool.false_eq_true, if_false, steps_append, h0, h1]
      rw [hbb]
      cases b with
      | true =>
        simp only [if_true, List.cons_append, Col.steps, Col.step, steps_append, steps_boxPorts]
        simp only [steps_connects]
        split <;> rename_i h <;> simp only [h]
      | false =>
        simp only [Bool.false_eq_true, if_false, visitAll_steps hb ms, steps_append]
        simp only [steps_connects]
        split <;> rename_i h <;> simp only [h]

theorem visitAll_steps {E : TravEnv} {boxed : Str → Str → Bool} (hb : DecidesBoxes E.opts.boxes boxed) :
    ∀ (ms : List Member) (c : Col),
      c.visitAll E ms = Col.steps E c (eventsAll boxed E.opts.propCuts ms)
  | [], c => rfl
  | m :: ms, c => by
    simp only [Col.visitAll, eventsAll, steps_append, visit_steps hb m]
    split <;> rename_i h <;> simp only [h]
    exact visitAll_steps hb ms _
end

/-! ### States and their growth -/

/-- A well-formed state of the traversal. -/
structure Fine (D : Design) (c : Col) : Prop where
  ok : BldOk c.b
  hist : ∀ x ∈ c.hist, x.2.drivers ≠ [] ∧ ∀ d ∈ x.2.drivers, ∃ n ∈ c.b.net.g.nodes, d.node = some n
  cuts : CutsOk c.cuts
  rng : ∀ y, ∀ e ∈ c.b.vars y, 0 ≤ e.lo ∧ e.lo ≤ e.hi ∧ e.hi < D.width y

/-- The state grows: nodes with data in `M` are made, symbols outside `S` get no nodes. -/
structure Grew (M : NodeData → Prop) (S : Nat → Prop) (c c' : Col) : Prop where
  net : NetLe c.b.net c'.b.net
  made : ∀ n ∈ c'.b.net.g.nodes, n ∈ c.b.net.g.nodes ∨ M (c'.b.net.data n)
  vars : ∀ y e, e ∈ c.b.vars y → e ∈ c'.b.vars y
  fixed : ∀ y, ¬ S y → c'.b.vars y = c.b.vars y
  queue : ∃ q, c'.b.queue = c.b.queue ++ q
  hist : ∃ h, c'.hist = c.hist ++ h
  cuts : ∀ y l, c.cuts y = some l → ∃ l', c'.cuts y = some l' ∧ ∀ k ∈ l, k ∈ l'
  fresh : ∀ y, ∀ e ∈ c'.b.vars y, e ∈ c.b.vars y ∨ (S y ∧ e.val ∈ c'.b.net.g.nodes ∧ M (c'.b.net.data e.val))

theorem Grew.refl (M : NodeData → Prop) (S : Nat → Prop) (c : Col) : Grew M S c c :=
  ⟨NetLe.refl _, fun _ h => .inl h, fun _ _ h => h, fun _ _ => rfl, ⟨[], by simp⟩, ⟨[], by simp⟩,
    fun _ l h => ⟨l, h, fun _ h => h⟩, fun _ _ h => .inl h⟩

theorem Grew.trans {M1 M2 : NodeData → Prop} {S1 S2 : Nat → Prop} {a b c : Col} (h : Grew M1 S1 a b)
    (k : Grew M2 S2 b c) : Grew (fun d => M1 d ∨ M2 d) (fun y => S1 y ∨ S2 y) a c := by
  refine ⟨h.net.trans k.net, ?_, fun y e he => k.vars y e (h.vars y e he), ?_, ?_, ?_, ?_, ?_⟩
  · intro n hn
    rcases k.made n hn with hn | hn
    · rcases h.made n hn with h1 | h1
      · exact .inl h1
      · exact .inr (.inl (by rw [k.net.data n hn]; exact h1))
    · exact .inr (.inr hn)
  · intro y hy
    rw [k.fixed y fun h => hy (.inr h), h.fixed y fun h => hy (.inl h)]
  · obtain ⟨q, hq⟩ := h.queue
    obtain ⟨r, hr⟩ := k.queue
    exact ⟨q ++ r, by rw [hr, hq]; simp⟩
  · obtain ⟨q, hq⟩ := h.hist
    obtain ⟨r, hr⟩ := k.hist
    exact ⟨q ++ r, by rw [hr, hq]; simp⟩
  · intro y l hl
    obtain ⟨l1, h1, h2⟩ := h.cuts y l hl
    obtain ⟨l2, h3, h4⟩ := k.cuts y l1 h1
    exact ⟨l2, h3, fun x hx => h4 x (h2 x hx)⟩
  · intro y e he
    rcases k.fresh y e he with he | ⟨h1, h2, h3⟩
    · rcases h.fresh y e he with he | ⟨h1, h2, h3⟩
      · exact .inl he
      · exact .inr ⟨.inl h1, k.net.nodes _ h2, .inl (by rw [k.net.data _ h2]; exact h3)⟩
    · exact .inr ⟨.inr h1, h2, .inr h3⟩

theorem Grew.weaken {M1 M2 : NodeData → Prop} {S1 S2 : Nat → Prop} {a b : Col} (h : Grew M1 S1 a b)
    (hM : ∀ d, M1 d → M2 d) (hS : ∀ y, S1 y → S2 y) : Grew M2 S2 a b :=
  ⟨h.net, fun n hn => (h.made n hn).imp_right (hM _), h.vars, fun y hy => h.fixed y fun h => hy (hS y h),
    h.queue, h.hist, h.cuts, fun y e he => (h.fresh y e he).imp_right fun ⟨h1, h2, h3⟩ => ⟨hS y h1, h2, hM _ h3⟩⟩

/-- Everything but graph, node table and recordings is left alone. -/
structure Still (c c' : Col) : Prop where
  queue : c'.b.queue = c.b.queue
  cuts : c'.cuts = c.cuts
  boxes : c'.boxes = c.boxes
  blocks : c'.blocks = c.blocks
  just : ∀ J, Just J c.b.net → Just J c'.b.net

theorem Still.refl (c : Col) : Still c c := ⟨rfl, rfl, rfl, rfl, fun _ h => h⟩

theorem Still.trans {a b c : Col} (h : Still a b) (k : Still b c) : Still a c :=
  ⟨k.queue.trans h.queue, k.cuts.trans h.cuts, k.boxes.trans h.boxes, k.blocks.trans h.blocks,
    fun J hJ => k.just J (h.just J hJ)⟩

/-! ### New nodes -/

theorem bounds_lower {b : BitRange} (h : b.left ≤ b.right) : b.lower = b.left ∧ b.upper = b.right := by
  simp only [BitRange.lower, BitRange.upper]; omega

theorem newNode_ok {D : Design} {c : Col} (h : Fine D c) (sym : Nat) {b : BitRange} {d : NodeData}
    (hd : d.bounds = some b) (h0 : 0 ≤ b.left) (h1 : b.left ≤ b.right) (h2 : b.right < D.width sym) :
    ∃ c' n, c.newNode sym b d = .ok (c', n) ∧ Fine D c' ∧ Grew (· = d) (· = sym) c c' ∧ Still c c' ∧
      n ∈ c'.b.net.g.nodes ∧ c'.b.net.data n = d ∧ c'.hist = c.hist ∧
      ∀ y e, e ∈ c'.b.vars y ↔ e ∈ c.b.vars y ∨ (y = sym ∧ e = ⟨b.left, b.right, n⟩) := by
  obtain ⟨net', a1, a2, a3, a4, a5, a6, _, _⟩ := addNode_le h.ok.reach d
  obtain ⟨b1, b2⟩ := bounds_lower h1
  have hv : ∀ y e, e ∈ (c.b.vars.insert sym b c.b.net.g.nextNode) y ↔
      e ∈ c.b.vars y ∨ (y = sym ∧ e = ⟨b.left, b.right, c.b.net.g.nextNode⟩) := by
    intro y e; rw [varInsert_mem, b1, b2]
  have hin : c.b.net.g.nextNode ∈ net'.g.nodes := by rw [a4]; simp
  refine ⟨{ c with b := { c.b with net := net', vars := c.b.vars.insert sym b c.b.net.g.nextNode } },
    c.b.net.g.nextNode, by simp only [Col.newNode, a1], ⟨⟨a2, ?_, ?_⟩, ?_, h.cuts, ?_⟩,
    ⟨a3, ?_, ?_, ?_, ⟨[], by simp⟩, ⟨[], by simp⟩, fun _ l hl => ⟨l, hl, fun _ h => h⟩, ?_⟩,
    ⟨rfl, rfl, rfl, rfl, fun J hJ => (just_addNode h.ok.reach hJ a1).2.1⟩, hin, a6, rfl, hv⟩
  · intro y e he
    rcases (hv y e).1 he with he | ⟨rfl, rfl⟩
    · obtain ⟨g1, g2⟩ := h.ok.vars y e he
      exact ⟨a3.nodes _ g1, by dsimp only; rw [a3.data _ g1]; exact g2⟩
    · exact ⟨hin, b, by dsimp only; rw [a6, hd], b1, b2⟩
  · intro x hx n hn; exact a3.nodes n (h.ok.pend x hx n hn)
  · intro x hx
    obtain ⟨g1, g2⟩ := h.hist x hx
    refine ⟨g1, fun d hd => ?_⟩
    obtain ⟨n, g3, g4⟩ := g2 d hd
    exact ⟨n, a3.nodes n g3, g4⟩
  · intro y e he
    rcases (hv y e).1 he with he | ⟨rfl, rfl⟩
    · exact h.rng y e he
    · exact ⟨h0, h1, h2⟩
  · intro n hn
    dsimp only at hn ⊢
    rw [a4] at hn
    rcases List.mem_append.1 hn with hn | hn
    · exact .inl hn
    · rw [List.mem_singleton] at hn; subst hn; exact .inr a6
  · intro y e he; exact (hv y e).2 (.inl he)
  · intro y hy
    show (c.b.vars.insert sym b c.b.net.g.nextNode) y = c.b.vars y
    unfold VarTab.insert
    exact if_neg hy
  · intro y e he
    rcases (hv y e).1 he with he | ⟨rfl, rfl⟩
    · exact .inl he
    · exact .inr ⟨rfl, hin, a6⟩

/-- What is recorded for the driver maps. -/
def Covers (r : Nat × Rec) (x : Nat) (j : Int) : Prop := r.1 = x ∧ InRng r.2.bounds j

/-- The data of a port node. -/
def portData (E : TravEnv) (p : PortDecl) (x : Nat) (b : BitRange) : NodeData :=
  .port (E.D.ref x).name (E.D.ref x).path (E.D.ref x).loc p.dir b

/-- The effect of making the port nodes for the ranges `B`, those in `I` as inputs. -/
structure Ported (E : TravEnv) (p : PortDecl) (x : Nat) (B I : BitRange → Prop) (c c' : Col) : Prop where
  fine : Fine E.D c'
  grew : Grew (fun d => ∃ b, B b ∧ d = portData E p x b) (· = p.sym) c c'
  still : Still c c'
  new : ∀ e ∈ c'.b.vars p.sym, e ∈ c.b.vars p.sym ∨ (B ⟨e.lo, e.hi⟩ ∧
    c'.b.net.data e.val = portData E p x ⟨e.lo, e.hi⟩)
  has : ∀ b, B b → ∃ n, ⟨b.left, b.right, n⟩ ∈ c'.b.vars p.sym ∧ c'.b.net.data n = portData E p x b
  hist : ∃ h, c'.hist = c.hist ++ h ∧ (∀ r ∈ h, r.1 = x ∧ I r.2.bounds ∧ r.2.merge = false ∧ ∃ n,
    r.2.drivers = [⟨some n, 0⟩] ∧ ⟨r.2.bounds.left, r.2.bounds.right, n⟩ ∈ c'.b.vars p.sym ∧
      c'.b.net.data n = portData E p x r.2.bounds) ∧
    ∀ b, I b → ∃ r ∈ h, r.2.bounds = b

theorem Ported.nil {E : TravEnv} {p : PortDecl} {x : Nat} {c : Col} (h : Fine E.D c) :
    Ported E p x (fun _ => False) (fun _ => False) c c :=
  ⟨h, Grew.refl _ _ _, Still.refl _, fun _ h => .inl h, fun _ h => h.elim,
    ⟨[], by simp, by simp, fun _ h => h.elim⟩⟩

theorem Ported.trans {E : TravEnv} {p : PortDecl} {x : Nat} {B1 I1 B2 I2 B I : BitRange → Prop}
    {a b c : Col} (h : Ported E p x B1 I1 a b) (k : Ported E p x B2 I2 b c)
    (hB : ∀ r, B r ↔ B1 r ∨ B2 r) (hI : ∀ r, I r ↔ I1 r ∨ I2 r) : Ported E p x B I a c := by
  have hdat : ∀ e ∈ b.b.vars p.sym, c.b.net.data e.val = b.b.net.data e.val := fun e he =>
    k.grew.net.data _ (h.fine.ok.vars _ e he).1
  refine ⟨k.fine, (h.grew.trans k.grew).weaken ?_ ?_, h.still.trans k.still, ?_, ?_, ?_⟩
  · rintro d (⟨r, h1, h2⟩ | ⟨r, h1, h2⟩)
    · exact ⟨r, (hB r).2 (.inl h1), h2⟩
    · exact ⟨r, (hB r).2 (.inr h1), h2⟩
  · rintro y (h | h) <;> exact h
  · intro e he
    rcases k.new e he with he | ⟨h1, h2⟩
    · rcases h.new e he with h0 | ⟨h1, h2⟩
      · exact .inl h0
      · exact .inr ⟨(hB _).2 (.inl h1), (hdat e he).trans h2⟩
    · exact .inr ⟨(hB _).2 (.inr h1), h2⟩
  · intro r hr
    rcases (hB r).1 hr with hr | hr
    · obtain ⟨n, h1, h2⟩ := h.has r hr
      exact ⟨n, k.grew.vars _ _ h1, (hdat _ h1).trans h2⟩
    · exact k.has r hr
  · obtain ⟨l1, h1, h2, h3⟩ := h.hist
    obtain ⟨l2, k1, k2, k3⟩ := k.hist
    refine ⟨l1 ++ l2, by rw [k1, h1]; simp, ?_, ?_⟩
    · intro r hr
      rcases List.mem_append.1 hr with hr | hr
      · obtain ⟨g1, g2, g3, n, g4, g5, g6⟩ := h2 r hr
        exact ⟨g1, (hI _).2 (.inl g2), g3, n, g4, k.grew.vars _ _ g5, (hdat _ g5).trans g6⟩
      · obtain ⟨g1, g2, g3⟩ := k2 r hr
        exact ⟨g1, (hI _).2 (.inr g2), g3⟩
    · intro r hr
      rcases (hI r).1 hr with hr | hr
      · obtain ⟨q, g1, g2⟩ := h3 r hr
        exact ⟨q, List.mem_append_left _ g1, g2⟩
      · obtain ⟨q, g1, g2⟩ := k3 r hr
        exact ⟨q, List.mem_append_right _ g1, g2⟩

theorem portSegs_ok (E : TravEnv) (p : PortDecl) (x : Nat) (input : Bool) (segs : List BitRange) :
    ∀ {c : Col}, Fine E.D c →
    (∀ b ∈ segs, 0 ≤ b.left ∧ b.left ≤ b.right ∧ b.right < E.D.width p.sym) →
    ∃ c', c.portSegs E p x input segs = .ok c' ∧
      Ported E p x (· ∈ segs) (fun b => input = true ∧ b ∈ segs) c c' := by
  induction segs with
  | nil =>
    intro c hc _
    exact ⟨c, rfl, (Ported.nil hc).trans (Ported.nil hc) (by simp) (by simp)⟩
  | cons b bs ih =>
    intro c hc hb
    obtain ⟨g1, g2, g3⟩ := hb b List.mem_cons_self
    obtain ⟨c1, n, a1, a2, a3, a4, a5, a6, a7, a8⟩ :=
      newNode_ok hc p.sym (b := b) (d := portData E p x b) rfl g1 g2 g3
    have hmem : (⟨b.left, b.right, n⟩ : Ivl Nat) ∈ c1.b.vars p.sym := (a8 _ _).2 (.inr ⟨rfl, rfl⟩)
    have hstep : ∃ c2, (if input then ({ c1 with hist := c1.hist ++ [(x, ⟨b, [⟨some n, 0⟩], false⟩)] } : Col)
        else c1) = c2 ∧ Ported E p x (· = b) (fun r => input = true ∧ r = b) c c2 := by
      have hnew : ∀ e ∈ c1.b.vars p.sym, e ∈ c.b.vars p.sym ∨ (((⟨e.lo, e.hi⟩ : BitRange) = b) ∧
          c1.b.net.data e.val = portData E p x ⟨e.lo, e.hi⟩) := by
        intro e he
        rcases (a8 _ _).1 he with h | ⟨_, rfl⟩
        · exact .inl h
        · exact .inr ⟨rfl, a6⟩
      have hgr : Grew (fun d => ∃ b', b' = b ∧ d = portData E p x b') (· = p.sym) c c1 :=
        a3.weaken (fun d hd => ⟨b, rfl, hd⟩) fun _ h => h
      cases input with
      | false =>
        refine ⟨c1, rfl, a2, hgr, a4, hnew, ?_, ⟨[], by simp [a7], by simp, by simp⟩⟩
        rintro _ rfl; exact ⟨n, hmem, a6⟩
      | true =>
        refine ⟨_, rfl, ⟨a2.ok, ?_, a2.cuts, a2.rng⟩, ⟨hgr.net, hgr.made, hgr.vars, hgr.fixed, hgr.queue,
          ⟨[(x, ⟨b, [⟨some n, 0⟩], false⟩)], by simp [a7]⟩, hgr.cuts, hgr.fresh⟩, ⟨a4.queue, a4.cuts, a4.boxes, a4.blocks, a4.just⟩, hnew, ?_,
          ⟨[(x, ⟨b, [⟨some n, 0⟩], false⟩)], by simp [a7], ?_, ?_⟩⟩
        · intro y hy
          rcases List.mem_append.1 hy with hy | hy
          · exact a2.hist y hy
          · rw [List.mem_singleton] at hy
            subst hy
            refine ⟨by simp, fun d hd => ?_⟩
            rw [List.mem_singleton] at hd
            subst hd
            exact ⟨n, a5, rfl⟩
        · rintro _ rfl; exact ⟨n, hmem, a6⟩
        · intro r hr
          rw [List.mem_singleton] at hr
          subst hr
          exact ⟨rfl, ⟨rfl, rfl⟩, rfl, n, rfl, hmem, a6⟩
        · rintro _ ⟨_, rfl⟩
          exact ⟨_, List.mem_singleton.2 rfl, rfl⟩
    obtain ⟨c2, e1, e2⟩ := hstep
    obtain ⟨c3, f1, f2⟩ := ih e2.fine fun r hr => hb r (List.mem_cons_of_mem _ hr)
    refine ⟨c3, ?_, e2.trans f2 (by simp) (by simp; grind)⟩
    have a1' : c.newNode p.sym b (.port (E.D.ref x).name (E.D.ref x).path (E.D.ref x).loc p.dir b) =
      .ok (c1, n) := a1
    simp only [Col.portSegs, a1']
    rw [e1]
    exact f1

/-! ### Port and variable events -/

theorem tile_in {segs : List BitRange} : ∀ {lo hi : Int}, Tile lo hi segs → ∀ s ∈ segs,
    lo ≤ s.left ∧ s.left ≤ s.right ∧ s.right ≤ hi := by
  induction segs with
  | nil => intro lo hi h; exact h.elim
  | cons a as ih =>
    intro lo hi h s hs
    cases as with
    | nil => simp only [Tile] at h; simp at hs; subst hs; omega
    | cons b bs =>
      simp only [Tile] at h
      have hb := ih h.2.2 b List.mem_cons_self
      rcases List.mem_cons.1 hs with rfl | hs
      · omega
      · have := ih h.2.2 s hs; omega

/-- The segments of a driver. -/
theorem driverSegs_ok {hints : Option (List Nat)} (hh : ∀ l, hints = some l → l.Pairwise (· < ·))
    {lo hi : Nat} (h : lo ≤ hi) : ∃ segs, portSegments hints lo hi = .ok segs ∧
      (∀ b ∈ segs, (lo : Int) ≤ b.left ∧ b.left ≤ b.right ∧ b.right ≤ hi) ∧
      (∀ j : Int, lo ≤ j → j ≤ hi → ∃ b ∈ segs, b.left ≤ j ∧ j ≤ b.right) ∧
      (∀ l, hints = some l → ∀ k ∈ l, ∀ b ∈ segs, ¬ (b.left < (k : Int) ∧ (k : Int) ≤ b.right)) ∧
      (∀ b ∈ segs, b.left = lo ∨ ∃ l, hints = some l ∧ ∃ k ∈ l, b.left = (k : Int)) ∧
      ∀ b ∈ segs, b.right = hi ∨ ∃ l, hints = some l ∧ ∃ k ∈ l, b.right + 1 = (k : Int) := by
  have hright : ∀ {segs : List BitRange}, Tile lo hi segs →
      (∀ b ∈ segs, b.left = lo ∨ ∃ l, hints = some l ∧ ∃ k ∈ l, b.left = (k : Int)) →
      ∀ b ∈ segs, b.right = hi ∨ ∃ l, hints = some l ∧ ∃ k ∈ l, b.right + 1 = (k : Int) := by
    intro segs ht hl b hb
    have hbi := tile_in ht b hb
    by_cases he : b.right = hi
    · exact .inl he
    · obtain ⟨l1, r1, s, e, g1, g2, g3⟩ := tile_bit ht (b.right + 1) (by omega) (by omega)
      have hs : s ∈ segs := by rw [e]; simp
      obtain ⟨l2, r2, s2, e', _, _, k3⟩ := tile_bit ht b.right (by omega) (by omega)
      have hone : ∀ u ∈ segs, u.left ≤ b.right → b.right ≤ u.right → u = s2 := by
        intro u hu q1 q2
        rw [e'] at hu
        rcases List.mem_append.1 hu with hu | hu
        · exact absurd ⟨q1, q2⟩ (k3 u (List.mem_append_left _ hu))
        · rcases List.mem_cons.1 hu with hu | hu
          · exact hu
          · exact absurd ⟨q1, q2⟩ (k3 u (List.mem_append_right _ hu))
      have hsl : s.left = b.right + 1 := by
        refine Classical.byContradiction fun hn => ?_
        have e1 := hone s hs (by omega) (by omega)
        have e2 := hone b hb (by omega) (by omega)
        rw [e1, ← e2] at g2
        omega
      rcases hl s hs with h1 | ⟨l, h1, k, hk, h2⟩
      · omega
      · exact .inr ⟨l, h1, k, hk, by omega⟩
  have hcov : ∀ {segs : List BitRange}, Tile lo hi segs → ∀ j : Int, lo ≤ j → j ≤ hi →
      ∃ b ∈ segs, b.left ≤ j ∧ j ≤ b.right := by
    intro segs ht j h1 h2
    obtain ⟨l, r, s, e, h3, h4, _⟩ := tile_bit ht j h1 h2
    exact ⟨s, by rw [e]; simp, h3, h4⟩
  cases hints with
  | none =>
    obtain ⟨h1, h2⟩ := port_segments_plain lo hi h
    have hl : ∀ b ∈ [(⟨lo, hi⟩ : BitRange)], b.left = lo ∨ ∃ l, (none : Option (List Nat)) = some l ∧ ∃ k ∈ l, b.left = (k : Int) := by
      intro b hb; rw [List.mem_singleton] at hb; subst hb; exact .inl rfl
    exact ⟨_, h1, tile_in h2, hcov h2, by simp, hl, hright h2 hl⟩
  | some l =>
    obtain ⟨segs, h1, h2, h3⟩ := port_segments_tile (hh l rfl) h
    suffices hl : ∀ b ∈ segs, b.left = lo ∨ ∃ l', some l = some l' ∧ ∃ k ∈ l', b.left = (k : Int) by
      refine ⟨segs, h1, tile_in h2, hcov h2, ?_, hl, hright h2 hl⟩
      rintro _ ⟨⟩ k hk b hb ⟨h4, h5⟩
      have hbi := tile_in h2 b hb
      have hk' : (Int.ofNat k) ∈ segs.tail.map BitRange.left := by
        rw [h3]
        refine List.mem_map.2 ⟨k, List.mem_filter.2 ⟨hk, ?_⟩, rfl⟩
        simp; omega
      obtain ⟨t, ht, htk⟩ := List.mem_map.1 hk'
      have ht' := List.mem_of_mem_tail ht
      have hti := tile_in h2 t ht'
      obtain ⟨l1, r1, s, e, g1, g2, g3⟩ := tile_bit h2 k (by omega) (by omega)
      have hkk : Int.ofNat k = (k : Int) := rfl
      have hone : ∀ u ∈ segs, u.left ≤ (k : Int) → (k : Int) ≤ u.right → u = s := by
        intro u hu q1 q2
        rw [e] at hu
        rcases List.mem_append.1 hu with hu | hu
        · exact absurd ⟨q1, q2⟩ (g3 u (List.mem_append_left _ hu))
        · rcases List.mem_cons.1 hu with hu | hu
          · exact hu
          · exact absurd ⟨q1, q2⟩ (g3 u (List.mem_append_right _ hu))
      have e1 := hone b hb (by omega) h5
      have e2 := hone t ht' (by omega) (by omega)
      rw [e1, ← e2] at h4
      omega
    · intro b hb
      cases segs with
      | nil => cases hb
      | cons a as =>
        rcases List.mem_cons.1 hb with rfl | hb
        · refine .inl ?_
          cases as with
          | nil => exact h2.1
          | cons _ _ => exact h2.1
        · refine .inr ⟨l, rfl, ?_⟩
          have : b.left ∈ (a :: as).tail.map BitRange.left := List.mem_map.2 ⟨b, hb, rfl⟩
          rw [h3] at this
          obtain ⟨k, hk, e⟩ := List.mem_map.1 this
          exact ⟨k, (List.mem_filter.1 hk).1, e.symm⟩

/-- The range is a segment of the driver. -/
def InSegs (hints : Option (List Nat)) (d : PortDriver) (b : BitRange) : Prop :=
  ∃ segs, portSegments hints d.lo d.hi = .ok segs ∧ b ∈ segs

theorem portDrivers_ok (E : TravEnv) (p : PortDecl) (x : Nat) {hints : Option (List Nat)}
    (hh : ∀ l, hints = some l → l.Pairwise (· < ·)) (ds : List PortDriver) : ∀ {c : Col}, Fine E.D c →
    (∀ d ∈ ds, d.hi < E.D.width p.sym) →
    ∃ c', c.portDrivers E p x hints ds = .ok c' ∧
      Ported E p x (fun b => ∃ d ∈ ds, InSegs hints d b)
        (fun b => ∃ d ∈ ds, d.input = true ∧ InSegs hints d b) c c' := by
  induction ds with
  | nil =>
    intro c hc _
    exact ⟨c, rfl, (Ported.nil hc).trans (Ported.nil hc) (by simp) (by simp)⟩
  | cons d ds ih =>
    intro c hc hd
    have hw := hd d List.mem_cons_self
    obtain ⟨segs, a1, a2, _⟩ := driverSegs_ok hh (lo := d.lo) (hi := d.hi) (by simp [PortDriver.hi])
    obtain ⟨c1, b1, b2⟩ := portSegs_ok E p x d.input segs hc (fun b hb => by
      have := a2 b hb; omega)
    obtain ⟨c2, e1, e2⟩ := ih b2.fine fun d hd' => hd d (List.mem_cons_of_mem _ hd')
    have hin : ∀ b, InSegs hints d b ↔ b ∈ segs := by
      intro b
      constructor
      · rintro ⟨s, h1, h2⟩; rw [a1] at h1; cases h1; exact h2
      · intro h; exact ⟨segs, a1, h⟩
    refine ⟨c2, by simp only [Col.portDrivers, a1, b1, e1], b2.trans e2 ?_ ?_⟩
    · intro b; simp [hin]
    · intro b; simp [hin]

/-- The event of a port. -/
structure PortEff (E : TravEnv) (p : PortDecl) (c c' : Col) : Prop where
  fine : Fine E.D c'
  grew : Grew (Makes E.D (.port p)) (· ∈ declares (.port p)) c c'
  still : Still c c'
  has : ∀ x j, HasBit p x j → ∃ e ∈ c'.b.vars p.sym, e.lo ≤ j ∧ (j : Int) ≤ e.hi ∧
    c'.b.net.data e.val = portData E p x ⟨e.lo, e.hi⟩
  holds : ∀ x, p.inner = some x → ∀ d ∈ p.drivers, ∀ lo hi : Int, (d.lo : Int) ≤ lo → lo ≤ hi → hi ≤ d.hi →
    (E.opts.propCuts = true → ∀ l, c.cuts x = some l → ∀ k ∈ l, ¬ (lo < (k : Int) ∧ (k : Int) ≤ hi)) →
    ∃ e ∈ c'.b.vars p.sym, e.lo ≤ lo ∧ hi ≤ e.hi
  new : ∀ x, p.inner = some x → ∀ e ∈ c'.b.vars p.sym, e ∈ c.b.vars p.sym ∨
    (c'.b.net.data e.val = portData E p x ⟨e.lo, e.hi⟩ ∧ (E.opts.propCuts = true → ∀ l, c.cuts x = some l →
      ∀ k ∈ l, ¬ (e.lo < (k : Int) ∧ (k : Int) ≤ e.hi)))
  ends : ∀ x, p.inner = some x → ∀ e ∈ c'.b.vars p.sym, e ∈ c.b.vars p.sym ∨ ∃ d ∈ p.drivers,
    (d.lo : Int) ≤ e.lo ∧ e.hi ≤ d.hi ∧
    (e.lo = d.lo ∨ E.opts.propCuts = true ∧ ∃ l, c.cuts x = some l ∧ ∃ k ∈ l, e.lo = (k : Int)) ∧
    (e.hi = d.hi ∨ E.opts.propCuts = true ∧ ∃ l, c.cuts x = some l ∧ ∃ k ∈ l, e.hi + 1 = (k : Int))
  hist : ∃ h, c'.hist = c.hist ++ h ∧ (∀ r ∈ h, r.2.merge = false) ∧
    (∀ r ∈ h, ∃ n, r.2.drivers = [⟨some n, 0⟩] ∧
      ⟨r.2.bounds.left, r.2.bounds.right, n⟩ ∈ c'.b.vars p.sym ∧ p.inner = some r.1 ∧
      c'.b.net.data n = portData E p r.1 r.2.bounds ∧ r.2.bounds.left ≤ r.2.bounds.right ∧ 0 ≤ r.2.bounds.left ∧
      ∃ d ∈ p.drivers, d.input = true ∧ (d.lo : Int) ≤ r.2.bounds.left ∧ r.2.bounds.right ≤ d.hi) ∧
    ∀ x (j : Nat), (∃ r ∈ h, Covers r x j) ↔ Supplies p x j

theorem port_ok {E : TravEnv} {p : PortDecl} {c : Col} (hc : Fine E.D c) (h : EventOk E.D (.port p)) :
    ∃ c', Col.step E c (.port p) = .ok c' ∧ PortEff E p c c' := by
  cases hx : p.inner with
  | none =>
    refine ⟨c, by simp only [Col.step, Col.materialize, hx], hc, Grew.refl _ _ _, Still.refl _, ?_, ?_, ?_, ?_, ?_⟩
    · rintro x j ⟨h1, _⟩; rw [hx] at h1; cases h1
    · intro x h1; rw [hx] at h1; cases h1
    · intro x h1; rw [hx] at h1; cases h1
    · intro x h1; rw [hx] at h1; cases h1
    · refine ⟨[], by simp, by simp, by simp, ?_⟩
      intro x j; simp [Supplies, hx]
  | some x =>
    have hh : ∀ l, (if E.opts.propCuts then c.cuts.cutsFor x else none) = some l → l.Pairwise (· < ·) := by
      intro l hl
      split at hl
      · exact hc.cuts x l hl
      · cases hl
    obtain ⟨c', a1, a2⟩ := portDrivers_ok E p x hh p.drivers hc h
    have hspec : ∀ d : PortDriver, ∃ segs, portSegments (if E.opts.propCuts then c.cuts.cutsFor x else none)
        d.lo d.hi = .ok segs ∧ _ := fun d =>
      driverSegs_ok hh (lo := d.lo) (hi := d.hi) (by simp [PortDriver.hi])
    have hseg : ∀ {d b}, InSegs (if E.opts.propCuts then c.cuts.cutsFor x else none) d b →
        (d.lo : Int) ≤ b.left ∧ b.left ≤ b.right ∧ b.right ≤ d.hi := by
      rintro d b ⟨segs, h1, h2⟩
      obtain ⟨segs', h3, h4, _⟩ := hspec d
      rw [h1] at h3; cases h3
      exact h4 b h2
    have hcov : ∀ {d : PortDriver} {j : Int}, (d.lo : Int) ≤ j → j ≤ d.hi → ∃ b,
        InSegs (if E.opts.propCuts then c.cuts.cutsFor x else none) d b ∧ b.left ≤ j ∧ j ≤ b.right := by
      intro d j h1 h2
      obtain ⟨segs, h3, _, h4, _⟩ := hspec d
      obtain ⟨b, hb, h5⟩ := h4 j h1 h2
      exact ⟨b, ⟨segs, h3, hb⟩, h5⟩
    refine ⟨c', by simp only [Col.step, Col.materialize, hx]; exact a1, a2.fine, a2.grew.weaken ?_ ?_,
      a2.still, ?_, ?_, ?_, ?_, ?_⟩
    · rintro _ ⟨b, ⟨d, hd, hb⟩, rfl⟩
      have := hseg hb
      exact ⟨x, b, hx, this.2.1, ⟨d, hd, this.1, this.2.2⟩, rfl⟩
    · rintro y rfl; simp [declares]
    · rintro y j ⟨h1, d, hd, h2, h3⟩
      rw [hx] at h1; cases h1
      obtain ⟨b, hb, h4⟩ := hcov (d := d) (j := j) (by omega) (by omega)
      obtain ⟨n, h5, h6⟩ := a2.has b ⟨d, hd, hb⟩
      exact ⟨_, h5, h4.1, h4.2, h6⟩
    · intro y hy d hd lo hi q1 q2 q3 hcut
      rw [hx] at hy; cases hy
      obtain ⟨segs, h3, _, h4, _, h7, _⟩ := hspec d
      obtain ⟨b, hb, h5, h6⟩ := h4 hi (by omega) q3
      obtain ⟨n, h8, _⟩ := a2.has b ⟨d, hd, segs, h3, hb⟩
      refine ⟨_, h8, ?_, h6⟩
      show b.left ≤ lo
      rcases h7 b hb with h7 | ⟨l, h7, k, hk, h9⟩
      · omega
      · refine Classical.byContradiction fun hlt => ?_
        split at h7
        · rename_i hp
          exact hcut hp l h7 k hk (by omega)
        · cases h7
    · intro y hy e he
      rw [hx] at hy; cases hy
      rcases a2.new e he with h1 | ⟨⟨d, hd, hb⟩, h2⟩
      · exact .inl h1
      · refine .inr ⟨h2, fun hp l hl k hk => ?_⟩
        obtain ⟨segs, h3, h4⟩ := hb
        obtain ⟨segs', h5, _, _, h6, _⟩ := hspec d
        rw [h3] at h5; cases h5
        exact h6 l (by rw [if_pos hp]; exact hl) k hk _ h4
    · intro y hy e he
      rw [hx] at hy; cases hy
      rcases a2.new e he with h1 | ⟨⟨d, hd, hb⟩, h2⟩
      · exact .inl h1
      · obtain ⟨segs, h3, h4⟩ := hb
        obtain ⟨segs', h5, k1, _, _, k2, k3⟩ := hspec d
        rw [h3] at h5; cases h5
        have hcut : ∀ {l}, (if E.opts.propCuts then c.cuts.cutsFor x else none) = some l →
            E.opts.propCuts = true ∧ c.cuts x = some l := by
          intro l hl
          split at hl
          · rename_i hp; exact ⟨hp, hl⟩
          · cases hl
        refine .inr ⟨d, hd, (k1 _ h4).1, (k1 _ h4).2.2, ?_, ?_⟩
        · rcases k2 _ h4 with h | ⟨l, h, hk⟩
          · exact .inl h
          · exact .inr ⟨(hcut h).1, l, (hcut h).2, hk⟩
        · rcases k3 _ h4 with h | ⟨l, h, hk⟩
          · exact .inl h
          · exact .inr ⟨(hcut h).1, l, (hcut h).2, hk⟩
    · obtain ⟨l, h1, h2, h3⟩ := a2.hist
      refine ⟨l, h1, fun r hr => (h2 r hr).2.2.1, ?_, ?_⟩
      · intro r hr
        obtain ⟨g1, ⟨d, hd, gi, g2⟩, g3, n, g4, g5, g6⟩ := h2 r hr
        have := hseg g2
        exact ⟨n, g4, g5, by rw [g1]; exact hx, by rw [g1]; exact g6, this.2.1, by omega,
          d, hd, gi, this.1, this.2.2⟩
      · intro y j
        constructor
        · rintro ⟨r, hr, rfl, hj⟩
          obtain ⟨g1, ⟨d, hd, gi, g2⟩, _⟩ := h2 r hr
          have := hseg g2
          obtain ⟨q1, q2⟩ := bounds_lower this.2.1
          rw [inRng_iff, q1, q2] at hj
          exact ⟨by rw [g1]; exact hx, d, hd, gi, by omega, by omega⟩
        · rintro ⟨hy, d, hd, gi, q1, q2⟩
          rw [hx] at hy; cases hy
          obtain ⟨b, hb, h4⟩ := hcov (d := d) (j := j) (by omega) (by omega)
          obtain ⟨r, hr, e⟩ := h3 b ⟨d, hd, gi, hb⟩
          have := hseg hb
          obtain ⟨q3, q4⟩ := bounds_lower this.2.1
          refine ⟨r, hr, (h2 r hr).1, ?_⟩
          rw [e, inRng_iff, q3, q4]
          omega

theorem variable_ok {E : TravEnv} {sym : Nat} (ds : List (Nat × Nat)) : ∀ {c : Col}, Fine E.D c →
    (∀ d ∈ ds, d.1 + d.2 < E.D.width sym) → ∃ c', c.variables E sym ds = .ok c' ∧ Fine E.D c' ∧
      Grew (Makes E.D (.variable sym ds)) (· ∈ declares (.variable sym ds)) c c' ∧ Still c c' ∧
      c'.hist = c.hist ∧ ∀ d ∈ ds, ∃ e ∈ c'.b.vars sym, e.lo = d.1 ∧ e.hi = (d.1 : Int) + d.2 ∧
        c'.b.net.data e.val = .variable (E.D.ref sym).name (E.D.ref sym).path (E.D.ref sym).loc
          ⟨d.1, (d.1 : Int) + d.2⟩ := by
  induction ds with
  | nil => intro c hc _; exact ⟨c, rfl, hc, Grew.refl _ _ _, Still.refl _, rfl, by simp⟩
  | cons d ds ih =>
    intro c hc hd
    have hw := hd d List.mem_cons_self
    obtain ⟨c1, n, a1, a2, a3, a4, a5, a6, a7, a8⟩ := newNode_ok hc sym
      (b := ⟨d.1, (d.1 : Int) + d.2⟩) (d := .variable (E.D.ref sym).name (E.D.ref sym).path
        (E.D.ref sym).loc ⟨d.1, (d.1 : Int) + d.2⟩) rfl (by dsimp only; omega) (by dsimp only; omega)
        (by dsimp only; omega)
    obtain ⟨c2, b1, b2, b3, b4, b5, b6⟩ := ih a2 fun d hd' => hd d (List.mem_cons_of_mem _ hd')
    refine ⟨c2, by simp only [Col.variables, a1, b1], b2, (a3.trans b3).weaken ?_ ?_, a4.trans b4,
      b5.trans a7, ?_⟩
    · rintro _ (rfl | ⟨r, hr, rfl⟩)
      · exact ⟨d, by simp, rfl⟩
      · exact ⟨r, by simp [hr], rfl⟩
    · rintro y (rfl | h)
      · simp [declares]
      · exact h
    · intro r hr
      rcases List.mem_cons.1 hr with rfl | hr
      · exact ⟨_, b3.vars _ _ ((a8 _ _).2 (.inr ⟨rfl, rfl⟩)), rfl, rfl, by
          dsimp only; rw [b3.net.data n a5, a6]⟩
      · exact b6 r hr

end Verif.Proofs

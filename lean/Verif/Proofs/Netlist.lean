import Verif.Proofs.Hier
import Verif.Props.Build

/-! Helper lemmas for the whole build: paths through ports. -/
namespace Verif.Proofs
open Verif.Spec Verif.Model Verif.Props

/-- The states on the way to the built graph: at the end of Phase 1 (`c`, with driver maps `s`), after
the blocks (`s'`), and the graph. -/
structure Whole (E : TravEnv) (es : List Event) (c : Col) (s' : Bld) (net : NetGraph) : Prop where
  walk : Walked E es c
  done : ∃ s W, s.vars = c.b.vars ∧ Done E.D W (blocksOf es) s s'
  early : NetLe c.b.net net
  late : NetLe s'.net net
  queue : ∀ x ∈ c.b.queue, x ∈ s'.queue
  keep : ∀ y p d, (∃ l1 r l2, c.hist = l1 ++ r :: l2 ∧ Covers r y p ∧ HasN r.2.drivers d ∧
    ∀ r' ∈ l2, Covers r' y p → r'.2.merge = true) → DAt s'.trk s'.drv y p d
  read : ∀ y, Bare es y → ∀ b n g q, (⟨y, b, some n, g⟩ : Pending) ∈ s'.queue → InRng b q →
    ∀ a, DAt s'.trk s'.drv y q (some a) → Joined net a n
  look : ∀ y b n g st, (⟨y, b, some n, g⟩ : Pending) ∈ s'.queue → s'.vars.lookup y b = some st → Joined net st n
  ports : ∀ p, .port p ∈ es → ∀ e, e ∈ s'.vars p.sym ↔ e ∈ c.b.vars p.sym
  wf : Reachable net

theorem built {E : TravEnv} {boxed : Str → Str → Bool} {ord : Tracker → List (Nat × Nat)} {top : List Member}
    (h : Buildable E boxed ord top) : ∃ c s s' net, phase1 E top = .ok c ∧ c.start = .ok s ∧
      c.blocks = blocksOf (eventsAll boxed E.opts.propCuts top) ∧ Prepared s c.hist c.blocks ord ∧
      s.runBlocks E.D ord c.blocks = .ok s' ∧ s.build E.D ord c.blocks = .ok net ∧
      netlist E ord top = .ok net ∧ Whole E (eventsAll boxed E.opts.propCuts top) c s' net := by
  obtain ⟨c, a1, a2, a3⟩ := walked h.design
  have hbl : c.blocks = blocksOf (eventsAll boxed E.opts.propCuts top) := by rw [a3.blocks]; rfl
  have hpl := h.plain c a1
  obtain ⟨s, b1, b2, b3, b4, b5, b6, b7, b8⟩ := start_at a3.fine
    (plain_sub (fun w hw => List.mem_append_left _ hw) hpl)
  have hp : Prepared s c.hist c.blocks ord := ⟨b2, hpl, by rw [hbl]; exact h.live, by rw [hbl]; exact h.events, h.visits⟩
  obtain ⟨s', d1, d2⟩ := prepared_run E.D hp
  obtain ⟨net, k1, k2, k3, k4⟩ := resolve_ok d2.inv E.D
  have hb : s.build E.D ord c.blocks = .ok net := by simp only [Bld.build, d1, k1]
  refine ⟨c, s, s', net, a1, b1, hbl, hp, d1, hb, by simp only [netlist, a1, b1, hb], a2, ⟨s, _, b4, hbl ▸ d2⟩, ?_, k3, ?_, ?_, ?_,
    fun y b n g st hx hl => (k4 _ hx n rfl).1 st hl, ?_, k2⟩
  · rw [← b3]; exact d2.net.trans k3
  · intro x hx
    obtain ⟨q, hq⟩ := d2.queue
    rw [hq, b5]; exact List.mem_append_left _ hx
  · intro y p d hd
    exact d2.keep _ _ _ ((b8 y p d).2 hd)
  · intro y hy b n g q hx hq a ha
    refine (k4 _ hx n rfl).2 (noNode_lookup d2 ⟨?_, by rw [hbl]; exact hy.2⟩ _) q a hq ha
    rw [b4, a3.fixed hy.1]
  · intro p hpm e
    refine ⟨fun he => ?_, fun he => d2.old _ e (by rw [b4]; exact he)⟩
    rcases d2.vars _ e he with he | ⟨b, hb, _, w, hw, hs⟩
    · rw [b4] at he; exact he
    · exact absurd hs (h.ports p hpm b (by rw [← hbl]; exact hb) w hw)

variable {E : TravEnv} {es : List Event} {c : Col} {s' : Bld} {net : NetGraph}

theorem before_mem {p : PortDecl} {k : Conn} (h : Before es p k) : .port p ∈ es ∧ .connect k ∈ es := by
  obtain ⟨l1, l2, l3, rfl⟩ := h; simp

theorem last_mem {p : PortDecl} {x j : Nat} (h : LastSupply es x j p) : .port p ∈ es := by
  obtain ⟨l1, l2, rfl, _⟩ := h; simp

/-- An edge that does not enter a register. -/
def Hop (net : NetGraph) (a b : Nat) : Prop := Joined net a b ∧ (net.data b).kind ≠ .state

theorem hops_joined {a b : Nat} (h : Reach (Hop net) a b) : Reach (Joined net) a b := by
  induction h with
  | refl => exact .refl
  | tail _ h ih => exact ih.tail h.1

/-- The nodes of a port are not registers. -/
theorem port_kind (h : Whole E es c s' net) {p : PortDecl} (hp : .port p ∈ es) {x : Nat} (hx : p.inner = some x)
    {e : Ivl Nat} (he : e ∈ c.b.vars p.sym) : (net.data e.val).kind ≠ .state := by
  rw [h.early.data e.val (h.walk.eff.fine.ok.vars p.sym e he).1, (port_at h.walk hp).2.1 x hx e he]
  exact fun h => by cases h

theorem last_inner {p : PortDecl} {x j : Nat} (h : LastSupply es x j p) : p.inner = some x := by
  obtain ⟨l1, l2, _, h, _⟩ := h; exact h.1

/-- Into an instance: a driver of the actual's bit enters every node of the port that has the bit. -/
theorem enter_port (h : Whole E es c s' net) {p : PortDecl} {k : Conn} {j y q : Nat} (ht : Tied E es p k j y q)
    (ho : k.output = false) (hk : E.D.kind y ≠ .modportPort) (hy : Bare es y) {e : Ivl Nat}
    (he : e ∈ c.b.vars p.sym) (h1 : e.lo ≤ j) (h2 : (j : Int) ≤ e.hi) {a : Nat}
    (ha : DAt s'.trk s'.drv y q (some a)) : Joined net a e.val := by
  obtain ⟨hb, hs, htie⟩ := ht
  obtain ⟨i, hi⟩ := htie.1
  obtain ⟨b, hq, hx⟩ := (connect_at h.walk hb hi hs htie he h1 h2).1 ho hk
  exact h.read y hy b e.val _ q (h.queue _ hx) hq a ha

theorem enters (h : Whole E es c s' net) {y q x j : Nat} (he : Enters E es y q x j) {a : Nat}
    (ha : DAt s'.trk s'.drv y q (some a)) : ∃ a', DAt s'.trk s'.drv x j (some a') ∧ Hop net a a' := by
  obtain ⟨p, k, ho, ht, hl, hk, hy⟩ := he
  obtain ⟨e, g1, g2, g3, g4⟩ := (port_at h.walk (last_mem hl)).2.2.2 x j hl
  exact ⟨e.val, h.keep _ _ _ g4, enter_port h ht ho hk hy g1 g2 g3 ha, port_kind h (last_mem hl) (last_inner hl) g1⟩

theorem down (h : Whole E es c s' net) {y q z r : Nat} (hd : Down E es y q z r) : ∀ {a : Nat},
    DAt s'.trk s'.drv y q (some a) → ∃ a', DAt s'.trk s'.drv z r (some a') ∧ Reach (Hop net) a a' := by
  induction hd with
  | refl => intro a ha; exact ⟨a, ha, .refl⟩
  | step h1 _ ih =>
    intro a ha
    obtain ⟨a1, g1, g2⟩ := enters h h1 ha
    obtain ⟨a2, g3, g4⟩ := ih g1
    exact ⟨a2, g3, reach_trans (Reach.refl.tail g2) g4⟩

/-- Every port of `x` that holds the bits `lo` to `hi` has a node with bit `j` that is reached from a
node in `A`. -/
def Lifts (E : TravEnv) (es : List Event) (c : Col) (net : NetGraph) (A : Nat → Prop) (prev : Option Conn)
    (x : Nat) (lo hi : Int) (j : Nat) : Prop :=
  ∀ p, .port p ∈ es → E.D.port x = some p.sym → Spans E c.cuts p x lo hi → (∀ k0, prev = some k0 → Before es p k0) →
    ∃ a, A a ∧ ∃ e ∈ c.b.vars p.sym, e.lo ≤ j ∧ (j : Int) ≤ e.hi ∧ Reach (Hop net) a e.val

theorem exits (h : Whole E es c s' net) {A : Nat → Prop} {prev : Option Conn} {k : Conn} {x y : Nat} {lo hi lo' hi' : Int}
    {j q : Nat} (hx : Exits E es c.cuts prev k x lo hi j y lo' hi' q) (hl : Lifts E es c net A prev x lo hi j) :
    (∃ a, A a ∧ ∃ a', DAt s'.trk s'.drv y q (some a') ∧ Reach (Hop net) a a') ∧
    Lifts E es c net A (some k) y lo' hi' q := by
  obtain ⟨p, ho, ⟨hb, hs, htie⟩, hd, hu, hport, hh, l1, l2, hall, hprev⟩ := hx
  obtain ⟨i, hi⟩ := htie.1
  obtain ⟨a, ha, e, he, g1, g2, g3⟩ := hl p (before_mem hb).1 hport hh hprev
  obtain ⟨b, hq, hbb, hdir, hb0, hun, hhook⟩ := (connect_at h.walk hb hi hs htie he g1 g2).2 ho
  refine ⟨⟨a, ha, e.val, h.keep _ _ _ (hun hu), g3⟩, ?_⟩
  intro pp _ hpp hh' hbef
  have hin : ∀ t : Int, b.left ≤ t → t ≤ b.right → lo' ≤ t ∧ t ≤ hi' := by
    intro t h3 h4
    have h5 : ((t.toNat : Nat) : Int) = t := Int.toNat_of_nonneg (by omega)
    obtain ⟨w1, w2⟩ := bounds_lower hbb
    obtain ⟨j', hw', hj'⟩ := hdir hd t.toNat (by rw [inRng_iff, w1, w2, h5]; exact ⟨h3, h4⟩)
    have := hall j' t.toNat hw' hj'
    rwa [h5] at this
  obtain ⟨w1, w2⟩ := bounds_lower hbb
  rw [inRng_iff, w1, w2] at hq
  have hl' := hin b.left (by omega) hbb
  have hr' := hin b.right hbb (by omega)
  obtain ⟨e0, he0, f1, f2⟩ := (port_at h.walk (before_mem (hbef k rfl)).1).2.2.1 y lo' hi' hh'
  obtain ⟨e', he', f3, f4, f5⟩ := hhook pp (hbef k rfl) hpp ⟨e0, he0, by omega, by omega⟩
  exact ⟨a, ha, e', he', by omega, by omega, g3.tail ⟨h.early.join _ _ f5, port_kind h (before_mem (hbef k rfl)).1 hh'.1 he'⟩⟩

theorem up (h : Whole E es c s' net) {A : Nat → Prop} {prev : Option Conn} {x y : Nat} {lo hi : Int} {j q : Nat}
    (hu : Up E es c.cuts prev x lo hi j y q) : Lifts E es c net A prev x lo hi j →
    ∃ a, A a ∧ ∃ a', DAt s'.trk s'.drv y q (some a') ∧ Reach (Hop net) a a' := by
  induction hu with
  | one hx => intro hl; exact (exits h hx hl).1
  | more hx _ ih => intro hl; exact ih (exits h hx hl).2

/-- What a block leaves in a signal reaches the nodes of the signal's port. -/
theorem leave_port (h : Whole E es c s' net) {b : Deferred} (hb : b ∈ blocksOf es) {x j : Nat} {loc : TextLoc}
    (hl : Leaves b.stmt x j loc) {lo hi : Int}
    (hw : ∀ w ∈ allWrites b.stmt, w.sym = x → InRng w.bounds j → lo ≤ w.bounds.lower ∧ w.bounds.upper ≤ hi)
    {p : PortDecl} (hp : .port p ∈ es) (hport : E.D.port x = some p.sym) (hh : Spans E c.cuts p x lo hi) :
    ∃ e ∈ c.b.vars p.sym, e.lo ≤ j ∧ (j : Int) ≤ e.hi ∧ ∃ k ∈ net.g.nodes, Joined net k e.val ∧
      (¬ Clocked b → net.data k = .assignment loc) ∧
      (Clocked b → (∃ bd, InRng bd j ∧ net.data k = .state (E.D.ref x).name (E.D.ref x).path (E.D.ref x).loc bd ∧
        bd.left ≤ bd.right ∧ Fits (allWrites b.stmt) x bd.lower bd.upper ∧ ⟨bd.left, bd.right, k⟩ ∈ s'.vars x) ∧
        FedBy net loc k) := by
  obtain ⟨s, W, hv, hd⟩ := h.done
  obtain ⟨bd, g1, g2, g3, g4⟩ := hd.hook b hb x j loc hl
  have g3' := g3
  obtain ⟨⟨w, hwm, hws, l1, l2⟩, _⟩ := g3
  have hin := (inRng_iff _ _).1 g1
  obtain ⟨l3, l4⟩ := hw w hwm hws (by rw [inRng_iff]; omega)
  obtain ⟨e0, he0, f1, f2⟩ := (port_at h.walk hp).2.2.1 x lo hi hh
  obtain ⟨k, e, k1, k2, k3, k4, k5, k6⟩ := g4 p.sym hport ⟨e0, by rw [hv]; exact he0, fun i hi => by
    rw [inRng_iff] at hi; omega⟩
  obtain ⟨w1, w2⟩ := k5 j g1
  refine ⟨e, (h.ports p hp e).1 k4, w1, w2, k, h.late.nodes k k1, h.late.join _ _ k6, ?_, ?_⟩
  · intro hc; rw [h.late.data k k1]; exact k2 hc
  · intro hc; rw [h.late.data k k1]; exact ⟨⟨bd, g1, (k3 hc).1, g2, g3', (k3 hc).2.2⟩, fedBy_mono h.late (k3 hc).2.1⟩

/-- What a block leaves in a bit drives the bit, here or some levels up, from the assignment or from the
register it feeds. -/
theorem carried_comb (h : Whole E es c s' net) {b : Deferred} (hb : b ∈ blocksOf es) {x j : Nat} {loc : TextLoc}
    (hl : Leaves b.stmt x j loc) {y q : Nat} (hc : Arrives E es c.cuts b x j y q) :
    ∃ k ∈ net.g.nodes, (¬ Clocked b → net.data k = .assignment loc) ∧ (Clocked b → FedBy net loc k) ∧
      ∃ a', DAt s'.trk s'.drv y q (some a') ∧ Reach (Hop net) k a' := by
  rcases hc with ⟨hn, rfl, rfl⟩ | ⟨lo, hi, hw, hu⟩
  · obtain ⟨s, W, hv, hd⟩ := h.done
    obtain ⟨d, h1, m, hm, rfl, hdat⟩ := (hd.defs y q loc).2 (.inr ⟨b, hb, hn, hl⟩)
    exact ⟨m, h.late.nodes m hm, fun _ => by rw [h.late.data m hm, hdat], fun h => absurd h hn, m, h1, .refl⟩
  · obtain ⟨a, ⟨h1, h2, h3⟩, h4⟩ := up (A := fun a => a ∈ net.g.nodes ∧ (¬ Clocked b → net.data a = .assignment loc) ∧
        (Clocked b → FedBy net loc a)) h hu (by
      intro p hp hport hh _
      obtain ⟨e, he, l1, l2, k, k1, k2, k3, k4⟩ := leave_port h hb hl hw hp hport hh
      exact ⟨k, ⟨k1, k3, fun hc => (k4 hc).2⟩, e, he, l1, l2, Reach.refl.tail ⟨k2, port_kind h hp hh.1 he⟩⟩)
    exact ⟨a, h1, h2, h3, h4⟩

/-- What a block leaves in a bit drives the bit, here or some levels up. -/
theorem carried (h : Whole E es c s' net) {b : Deferred} (hb : b ∈ blocksOf es) {x j : Nat} {loc : TextLoc}
    (hl : Leaves b.stmt x j loc) {y q : Nat} (hc : Arrives E es c.cuts b x j y q) :
    ∃ a ∈ net.g.nodes, net.data a = .assignment loc ∧ ∃ a', DAt s'.trk s'.drv y q (some a') ∧ Reach (Joined net) a a' := by
  obtain ⟨k, h1, h2, h3, a', h4, h5⟩ := carried_comb h hb hl hc
  by_cases hb : Clocked b
  · obtain ⟨m, m1, m2, m3⟩ := h3 hb
    exact ⟨m, m1, m2, a', h4, reach_trans (Reach.refl.tail m3) (hops_joined h5)⟩
  · exact ⟨k, h1, h2 hb, a', h4, hops_joined h5⟩

end Verif.Proofs

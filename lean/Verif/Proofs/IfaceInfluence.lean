import Verif.Spec.IfaceMeaning
import Verif.Proofs.Influence

/-! Where the difference between two solutions of a design with interfaces comes from. -/
namespace Verif.Proofs
open Verif.Model Verif.Spec

variable {V : Type} {M : Meaning V} {E : TravEnv} {es : List Event} {cuts : CutReg} {via : Nat → Nat → Nat × Nat}
  {σ σ' : Vals V}

theorem up_via (hr : RegularVia E es cuts via) (hs : Solves M E es σ) {prev : Option Conn} {x y j q : Nat} {lo hi : Int}
    (h : Up E es cuts prev x lo hi j y q) : σ y q = σ x j ∧ ¬ OnIface E es y := by
  induction h with
  | one h =>
    have := exits_outlet hr.outlets h
    exact ⟨hs.outlets _ _ _ _ this, hr.inside _ _ _ _ this⟩
  | more h _ ih =>
    refine ⟨?_, ih.2⟩
    rw [ih.1]
    exact hs.outlets _ _ _ _ (exits_outlet hr.outlets h)

theorem arrives_via (hr : RegularVia E es cuts via) (hs : Solves M E es σ) {b : Deferred} {x y j q : Nat}
    (h : Arrives E es cuts b x j y q) : σ y q = σ x j ∧ (OnIface E es y → y = x ∧ q = j) := by
  rcases h with ⟨_, rfl, rfl⟩ | ⟨lo, hi, _, h⟩
  · exact ⟨rfl, fun _ => ⟨rfl, rfl⟩⟩
  · obtain ⟨h1, h2⟩ := up_via hr hs h
    exact ⟨h1, fun h => absurd h h2⟩

theorem bare_off {z : Nat} (h : Bare es z) (h' : E.D.kind z ≠ .modportPort) : ¬ OnIface E es z := by
  rintro (h1 | ⟨ds, h1⟩)
  · exact h' h1
  · exact h.1 _ h1 (by simp [declares])

/-- A difference in a bit off the interfaces comes from a source, from a bit that a block assigns, or from an
interface through an input port. -/
theorem trace_via (hr : RegularVia E es cuts via) (hf : Faithful M E es) (hs : Solves M E es σ) (hs' : Solves M E es σ')
    (z i : Nat) (hz : ¬ OnIface E es z) (hne : σ z i ≠ σ' z i) : ∃ y q, Brings E es y q z i ∧ σ y q ≠ σ' y q ∧
      ((¬ OnIface E es y ∧ (Source E es cuts y q ∨
        (Assigned E es cuts y q ∧ Down E es y q z i ∧ Bare es z ∧ E.D.kind z ≠ .modportPort))) ∨
      (OnIface E es y ∧ ∃ p k x j, k.output = false ∧ Tied E es p k j y q ∧ LastSupply es x j p ∧ Down E es x j z i ∧
        Bare es z ∧ E.D.kind z ≠ .modportPort)) := by
  obtain ⟨depth, hd⟩ := hr.nested
  generalize hn : depth z = n
  induction n using Nat.strongRecOn generalizing z i with
  | ind n ih =>
    by_cases ha : Assigned E es cuts z i
    · exact ⟨z, i, .refl _ _, hne, .inl ⟨hz, .inr ⟨ha, .refl _ _, (hr.assigned _ _ ha).resolve_left hz⟩⟩⟩
    · by_cases hin : ∃ y q, Inlet E es y q z i
      · obtain ⟨y, q, hin⟩ := hin
        have : ∃ y q, Inlet E es y q z i ∧ σ y q ≠ σ' y q := by
          refine Classical.byContradiction fun hc => hne ?_
          rw [hs.inlets _ _ _ _ hin, hs'.inlets _ _ _ _ hin]
          refine hf.inlets z i σ σ' ?_
          rintro y _ ⟨q, rfl, h⟩
          exact Classical.byContradiction fun h' => hc ⟨y, q, h, h'⟩
        obtain ⟨y, q, h1, h2⟩ := this
        obtain ⟨k1, k2⟩ := hr.inlets _ _ _ _ h1
        by_cases hy : OnIface E es y
        · have hb : Brings E es y q z i := .step h1 (.refl _ _)
          obtain ⟨p, k, e1, e2, e3⟩ := h1
          exact ⟨y, q, hb, h2, .inr ⟨hy, p, k, z, i, e1, e2, e3, .refl _ _, k1, k2⟩⟩
        · obtain ⟨y0, q0, g1, g2, g4⟩ := ih _ (hn ▸ hd _ _ _ _ h1) y q hy h2 rfl
          have snoc : ∀ {y0 q0}, Bare es y → E.D.kind y ≠ .modportPort → Down E es y0 q0 y q → Down E es y0 q0 z i := by
            intro y0 q0 c1 c2 b
            obtain ⟨p, k, e1, e2, e3⟩ := h1
            exact down_snoc b ⟨p, k, e1, e2, e3, c2, c1⟩
          refine ⟨y0, q0, brings_snoc g1 h1, g2, g4.imp (And.imp id (Or.imp id fun ⟨a, b, c1, c2⟩ => ⟨a, snoc c1 c2 b, k1, k2⟩))
            (And.imp id fun ⟨p, k, x, j, a1, a2, a3, b, c1, c2⟩ => ⟨p, k, x, j, a1, a2, a3, snoc c1 c2 b, k1, k2⟩)⟩
      · exact ⟨z, i, .refl _ _, hne, .inl ⟨hz, .inl ⟨ha, fun y q h => hin ⟨y, q, h⟩⟩⟩⟩

/-- A bit on an interface that no block assigns under any of its names comes from outside. -/
theorem outer_via (hr : RegularVia E es cuts via) {z i : Nat} (hz : OnIface E es z)
    (hex : ¬ ∃ y' q', OnIface E es y' ∧ via y' q' = via z i ∧ Assigned E es cuts y' q') :
    OuterSource E es cuts via z i := by
  refine ⟨⟨fun h => hex ⟨_, _, hz, rfl, h⟩, fun y' q' h => ?_⟩, fun _ y' q' h1 h2 h3 => hex ⟨y', q', h1, h2, h3⟩⟩
  obtain ⟨c1, c2⟩ := hr.inlets _ _ _ _ h
  exact bare_off c1 c2 hz

/-- What a node reads from outside its block differs only if a source differs, or a bit that a block assigns and
all of whose assignments pass their values to the node. -/
theorem see_via (hr : RegularVia E es cuts via) (hf : Faithful M E es) (hs : Solves M E es σ) (hs' : Solves M E es σ')
    (hv : Shared E es via σ) (hv' : Shared E es via σ') {v : NodeData} {b2 : Deferred} {r : Ref} {i : Nat}
    {Q : List Wr → Prop} (k1 : b2 ∈ blocksOf es) (k3 : Use Start b2.stmt v r Q) (k4 : ∃ tr, Q tr) (k6 : InRng r.bounds i)
    (k7 : ReadFits (allWrites b2.stmt) r.sym r.bounds) (k8 : ∀ tr, Q tr → ∀ w ∈ tr, ¬ Hits true r.sym i w)
    (hrd : OnIface E es r.sym → ∃ d, DrivenRange es (via r.sym i).1 (via r.sym i).2 d ∧
      TakesFrom E.D r Q ((via r.sym i).1, ⟨d.1, (d.1 : Int) + d.2⟩))
    (hne : σ r.sym i ≠ σ' r.sym i) :
    (∃ s q, OuterSource E es cuts via s q ∧ σ s q ≠ σ' s q ∧ Brings E es s q r.sym i) ∨
    ∃ b ∈ blocksOf es, ¬ Clocked b ∧ ∃ x j : Nat, (∃ w ∈ allWrites b.stmt, Hits true x j w) ∧ σ x j ≠ σ' x j ∧
      ∀ loc, Leaves b.stmt x j loc → Passes E es cuts (.assignment loc) v := by
  by_cases hz : OnIface E es r.sym
  · by_cases hex : ∃ y' q', OnIface E es y' ∧ via y' q' = via r.sym i ∧ Assigned E es cuts y' q'
    · obtain ⟨y', q', a1, a2, b1, g1, g2, x, j, g3, g4⟩ := hex
      obtain ⟨rfl, rfl⟩ := (arrives_via hr hs g4).2 a1
      refine .inr ⟨b1, g1, g2, y', q', g3, ?_, fun loc hl => ?_⟩
      · rw [hv _ _ a1, hv' _ _ a1, a2, ← hv _ _ hz, ← hv' _ _ hz]
        exact hne
      · obtain ⟨d, d1, d2⟩ := hrd hz
        have d3 := hr.writes b1 g1 g2 y' q' g3 a1 d (a2 ▸ d1)
        rw [a2] at d3
        obtain ⟨_, _, ds, d4, d5⟩ := d1
        exact .iface g1 g2 hl (.read d4 d5 (hr.clocks _ _ d4) d3 k1 k3 k4 k7 d2)
    · exact .inl ⟨r.sym, i, outer_via hr hz hex, hne, .refl _ _⟩
  · obtain ⟨y, q, h1, h2, h⟩ := trace_via hr hf hs hs' _ i hz hne
    rcases h with ⟨h3, h4 | ⟨⟨b1, g1, g2, x, j, g3, g4⟩, h5, h6, h7⟩⟩ | ⟨h3, p, k, x0, j0, e1, e2, e3, e4, e5, e6⟩
    · exact .inl ⟨y, q, ⟨h4, fun h => absurd h h3⟩, h2, h1⟩
    · rw [(arrives_via hr hs g4).1, (arrives_via hr hs' g4).1] at h2
      exact .inr ⟨b1, g1, g2, x, j, g3, h2, fun loc hl => .across g1 g2 hl g4 h5 k1 k3 k4 k7 rfl k6 k8 h7 h6⟩
    · by_cases hex : ∃ y' q', OnIface E es y' ∧ via y' q' = via y q ∧ Assigned E es cuts y' q'
      · obtain ⟨y', q', a1, a2, b1, g1, g2, x, j, g3, g4⟩ := hex
        obtain ⟨rfl, rfl⟩ := (arrives_via hr hs g4).2 a1
        refine .inr ⟨b1, g1, g2, y', q', g3, ?_, fun loc hl => ?_⟩
        · rw [hv _ _ a1, hv' _ _ a1, a2, ← hv _ _ h3, ← hv' _ _ h3]
          exact h2
        · obtain ⟨ds, d, d1, d2, d3, d4, d5⟩ := hr.wired p k x0 j0 y q e1 e2 e3 h3
          have d6 := hr.writes b1 g1 g2 y' q' g3 a1 d (a2 ▸ ⟨d3, d4, ds, d1, d2⟩)
          rw [a2] at d6
          exact .iface g1 g2 hl (.port d1 d2 (hr.clocks _ _ d1) d6 d5 e3 e4 k1 k3 k4 k7 rfl k6 k8 e6 e5)
      · exact .inl ⟨y, q, outer_via hr h3 hex, h2, h1⟩

theorem fetch_via (hr : RegularVia E es cuts via) (hf : Faithful M E es) (hs : Solves M E es σ) (hs' : Solves M E es σ')
    (hv : Shared E es via σ) (hv' : Shared E es via σ') {v : NodeData} {z i : Nat} (hfe : Fetches es z i v)
    (hne : σ z i ≠ σ' z i) :
    (∃ s q, OuterSource E es cuts via s q ∧ σ s q ≠ σ' s q ∧ Brings E es s q z i) ∨
    ∃ b ∈ blocksOf es, ¬ Clocked b ∧ ∃ x j : Nat, (∃ w ∈ allWrites b.stmt, Hits true x j w) ∧ σ x j ≠ σ' x j ∧
      ∀ loc, Leaves b.stmt x j loc → Passes E es cuts (.assignment loc) v := by
  obtain ⟨b2, k1, k2, r, Q, k3, k4, rfl, k6, k7, k8⟩ := hfe
  exact see_via hr hf hs hs' hv hv' k1 k3 k4 k6 k7 k8 (fun hz => hr.reads b2 k1 k2 v r Q k3 hz i k6 k8) hne

/-- A source whose values differ is read by a node from which `d` can be reached. -/
def TouchedVia (E : TravEnv) (es : List Event) (cuts : CutReg) (via : Nat → Nat → Nat × Nat) (σ σ' : Vals V)
    (d : NodeData) : Prop :=
  ∃ s q z i who, OuterSource E es cuts via s q ∧ σ s q ≠ σ' s q ∧ Brings E es s q z i ∧ Fetches es z i who ∧
    Reach (Passes E es cuts) who d

theorem touched_tail {u w : NodeData} (huw : Passes E es cuts u w) (h : TouchedVia E es cuts via σ σ' u) :
    TouchedVia E es cuts via σ σ' w := by
  obtain ⟨s, q', z', i', who, a1, a2, a3, a4, a5⟩ := h
  exact ⟨s, q', z', i', who, a1, a2, a3, a4, a5.tail huw⟩

/-- What a node reads from outside agrees, unless it is touched. -/
theorem fetch_agree_via (hr : RegularVia E es cuts via) (hf : Faithful M E es) (hs : Solves M E es σ)
    (hs' : Solves M E es σ') (hv : Shared E es via σ) (hv' : Shared E es via σ')
    (L : List NodeData) (hL : ∀ u v, Passes E es cuts u v → u ∈ L) (hac : ∀ d, ¬ OnCycle (Passes E es cuts) d)
    (v : NodeData) : ¬ TouchedVia E es cuts via σ σ' v → ∀ z i, Fetches es z i v → σ z i = σ' z i := by
  refine acyclic_induction L hL hac
    (C := fun v => ¬ TouchedVia E es cuts via σ σ' v → ∀ z i, Fetches es z i v → σ z i = σ' z i)
    (fun v ih ht z i hfe => ?_) v
  refine Classical.byContradiction fun hne => ?_
  rcases fetch_via hr hf hs hs' hv hv' hfe hne with ⟨s, q, h1, h2, h3⟩ | ⟨b1, g1, g2, x, j, g3, h2, hp⟩
  · exact ht ⟨s, q, z, i, v, h1, h2, h3, hfe, .refl⟩
  · refine h2 (tame_agree hr.comb hr.settled hr.complete hf hs hs' hac
      (Bad := fun u => ¬ Ahead (Passes E es cuts) u v ∨ TouchedVia E es cuts via σ σ' u) ?_ ?_ g1 g2 g3 ?_)
    · rintro u w huw (h | h)
      · exact .inl fun hw => h (ahead_trans ⟨u, .refl, huw⟩ hw)
      · exact .inr (touched_tail huw h)
    · intro z' i' who hfe' hb'
      have h1 : Ahead (Passes E es cuts) who v := Classical.byContradiction fun h => hb' (.inl h)
      exact ih who h1 (fun h => hb' (.inr h)) z' i' hfe'
    · rintro loc hl (h | h)
      · exact h ⟨_, .refl, hp loc hl⟩
      · exact ht (touched_tail (hp loc hl) h)

/-- A bit of a block differs only if one of the assignments that can leave it its value is touched. -/
theorem differs_via (hr : RegularVia E es cuts via) (hf : Faithful M E es) (hs : Solves M E es σ)
    (hs' : Solves M E es σ') (hv : Shared E es via σ) (hv' : Shared E es via σ') (L : List NodeData)
    (hL : ∀ u v, Passes E es cuts u v → u ∈ L) (hac : ∀ d, ¬ OnCycle (Passes E es cuts) d) {b : Deferred}
    (hb : b ∈ blocksOf es) (hk : ¬ Clocked b) {x j : Nat} (hw : ∃ w ∈ allWrites b.stmt, Hits true x j w)
    (hne : σ x j ≠ σ' x j) : ∃ loc, Leaves b.stmt x j loc ∧ TouchedVia E es cuts via σ σ' (.assignment loc) := by
  refine Classical.byContradiction fun hc => hne (tame_agree hr.comb hr.settled hr.complete hf hs hs' hac
    (Bad := TouchedVia E es cuts via σ σ') (fun _ _ => touched_tail) ?_ hb hk hw fun loc hl ht => hc ⟨loc, hl, ht⟩)
  intro z i who hfe ht
  exact fetch_agree_via hr hf hs hs' hv hv' L hL hac who ht z i hfe

end Verif.Proofs

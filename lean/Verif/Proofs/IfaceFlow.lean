import Verif.Spec.IfaceFlow
import Verif.Proofs.Netlist
import Verif.Props.Sequential
import Verif.Props.Build

/-! The nodes of interface variables, and what enters and leaves them. -/
namespace Verif.Proofs
open Verif.Model Verif.Spec Verif.Props

/-- All nodes that `variables` adds for a signal are variable nodes of it. -/
theorem variables_new {E : TravEnv} {sym : Nat} (ds : List (Nat × Nat)) : ∀ {c c' : Col}, Fine E.D c →
    (∀ d ∈ ds, d.1 + d.2 < E.D.width sym) → c.variables E sym ds = .ok c' → ∀ e ∈ c'.b.vars sym,
    e ∈ c.b.vars sym ∨ c'.b.net.data e.val = .variable (E.D.ref sym).name (E.D.ref sym).path (E.D.ref sym).loc ⟨e.lo, e.hi⟩ := by
  induction ds with
  | nil => intro c c' _ _ h e he; cases h; exact .inl he
  | cons d ds ih =>
    intro c c' hc hd h e he
    have hw := hd d List.mem_cons_self
    obtain ⟨c1, n, a1, a2, a3, a4, a5, a6, a7, a8⟩ := newNode_ok hc sym
      (b := ⟨d.1, (d.1 : Int) + d.2⟩) (d := .variable (E.D.ref sym).name (E.D.ref sym).path
        (E.D.ref sym).loc ⟨d.1, (d.1 : Int) + d.2⟩) rfl (by dsimp only; omega) (by dsimp only; omega)
        (by dsimp only; omega)
    have hd' : ∀ d ∈ ds, d.1 + d.2 < E.D.width sym := fun d hd' => hd d (List.mem_cons_of_mem _ hd')
    simp only [Col.variables, a1] at h
    obtain ⟨c2, b1, b2, b3, _⟩ := variable_ok ds a2 hd'
    rw [h] at b1; cases b1
    rcases ih a2 hd' h e he with he | he
    · rcases (a8 sym e).1 he with he | ⟨_, rfl⟩
      · exact .inl he
      · right
        dsimp only
        rw [b3.net.data n a5, a6]
    · exact .inr he

/-- The nodes of an interface variable at the end of Phase 1. -/
theorem variable_at {E : TravEnv} {es : List Event} {c : Col} (h : Walked E es c) {x : Nat} {ds : List (Nat × Nat)}
    (hx : .variable x ds ∈ es) {d : Nat × Nat} (hd : d ∈ ds) :
    ∃ m, c.b.vars.lookup x ⟨d.1, (d.1 : Int) + d.2⟩ = some m ∧ m ∈ c.b.net.g.nodes ∧
      c.b.net.data m = .variable (E.D.ref x).name (E.D.ref x).path (E.D.ref x).loc ⟨d.1, (d.1 : Int) + d.2⟩ := by
  obtain ⟨pre, post, rfl⟩ := List.append_of_mem hx
  obtain ⟨c0, c1, a1, a2, a3, a4, a5, a6⟩ := steps_at (fine_start E.D) h.ok h.run
  obtain ⟨o1, o2⟩ := once_split (y := x) h.once (by simp [declares])
  have hok : ∀ d ∈ ds, d.1 + d.2 < E.D.width x := h.ok (.variable x ds) (by simp)
  obtain ⟨c1', b1, b2, b3, _, _, b6⟩ := variable_ok ds a2.fine hok
  have hst : c0.variables E x ds = .ok c1 := a3
  rw [hst] at b1; cases b1
  have hfix : c.b.vars x = c1.b.vars x := a6.fixed o2
  have h0 : c0.b.vars x = [] := a2.fixed o1
  obtain ⟨e, he, e1, e2, _⟩ := b6 d hd
  obtain ⟨m, hm⟩ := lookup_of_hasNode (s := c.b) (sym := x) (b := ⟨d.1, (d.1 : Int) + d.2⟩)
    ⟨by dsimp only; omega, e, by rw [hfix]; exact he, e1, e2⟩
  obtain ⟨e', he', g1, g2⟩ := varLookup_mem hm
  subst g1
  rw [hfix] at he'
  have hn := (b2.ok.vars x e' he').1
  refine ⟨e'.val, hm, a6.grew.net.nodes _ hn, ?_⟩
  rw [a6.grew.net.data _ hn]
  rcases variables_new ds a2.fine hok hst e' he' with h' | h'
  · rw [h0] at h'; cases h'
  · rw [h', g2]

/-- The node of a driven range of an interface variable is entered from what is put on the range and left to what
takes its value from it. -/
theorem iface_at {E : TravEnv} {es : List Event} {c : Col} {s' : Bld} {net : NetGraph} (hw : Whole E es c s' net)
    {x : Nat} (hun : Unclocked es x) {d : Nat × Nat} {m : Nat}
    (m1 : c.b.vars.lookup x ⟨d.1, (d.1 : Int) + d.2⟩ = some m) :
      (∀ b ∈ blocksOf es, ∀ y p loc, Leaves b.stmt y p loc →
        PutsOn E.D b y (x, ⟨d.1, (d.1 : Int) + d.2⟩) → FedBy net loc m) ∧
      ∀ b ∈ blocksOf es, ∀ who r Q, Use Start b.stmt who r Q → (∃ tr, Q tr) →
        ReadFits (allWrites b.stmt) r.sym r.bounds → TakesFrom E.D r Q (x, ⟨d.1, (d.1 : Int) + d.2⟩) →
        ∃ n ∈ net.g.nodes, net.data n = who ∧ Joined net m n := by
  obtain ⟨s, W, hv, hdone⟩ := hw.done
  have hst : (steady (blocksOf es) s.vars).lookup x ⟨d.1, (d.1 : Int) + d.2⟩ =
      some m := by
    rw [steady_some, hv]
    exact ⟨hun, m1⟩
  constructor
  · intro b hb y p loc hl hp
    obtain ⟨bd, g1, g2, g3, g4⟩ := hdone.given b hb y p loc hl
    refine fedBy_mono hw.late (g4 (x, ⟨d.1, (d.1 : Int) + d.2⟩) m ?_ hst)
    rcases hp with hp | ⟨hk, rfl, hwr⟩
    · exact .inl hp
    · refine .inr ⟨hk, ?_⟩
      rw [whole_range hwr (by dsimp only; omega) g2 g3]
  · intro b hb who r Q hu hq hf ht
    obtain ⟨n, n1, _, n3, n4⟩ := hdone.uses b hb who r Q hu hq hf
    refine ⟨n, hw.late.nodes n n1, by rw [hw.late.data n n1, n3], ?_⟩
    rcases ht with ⟨hk, hv', p, hp, hno⟩ | ⟨hk, h1, h2, hno⟩
    · exact hw.late.join _ _ (n4.behind hk p hp hno m ⟨_, hv', hst⟩)
    · have hq' := n4.whole hk (by rw [h2]; dsimp only; omega) hno
      refine hw.look _ _ n _ m hq' ?_
      rw [h1, h2]
      have := hdone.same x hun
      rw [hv] at this
      unfold VarTab.lookup at m1 ⊢
      dsimp only
      rw [this]; exact m1

end Verif.Proofs

import Verif.Spec.IfacePorts
import Verif.Proofs.IfaceFlow

/-! Ports that are connected to interface signals. -/
namespace Verif.Proofs
open Verif.Model Verif.Spec Verif.Props

/-- An input port that is connected to a modport port is entered from the variables behind it that are met
before the connection. -/
theorem connect_modport {E : TravEnv} {es : List Event} {c : Col} (h : Walked E es c) {p : PortDecl} {k : Conn}
    (hb : Before es p k) (hs : Simple E.opts E.D k) (ho : k.output = false) {j y q : Nat}
    (ht : Ties E.opts E.D k p.sym j y q) (hk : E.D.kind y = .modportPort) {e : Ivl Nat} (he : e ∈ c.b.vars p.sym)
    (h1 : e.lo ≤ j) (h2 : (j : Int) ≤ e.hi) {x : Nat} {ds : List (Nat × Nat)} (hx : Earlier es x ds k) {r : BitRange}
    (hv : ∀ l, (x, r) ∈ E.D.iface y l) {m : Nat} (hm : c.b.vars.lookup x r = some m) : Joined c.b.net m e.val := by
  obtain ⟨pre, post, rfl, hlast⟩ := last_split (a := Event.connect k) (l := es) (by
    obtain ⟨l1, l2, l3, rfl⟩ := hb; simp)
  obtain ⟨c0, c1, a1, a2, a3, a4, a5, a6⟩ := steps_at (fine_start E.D) h.ok h.run
  obtain ⟨c1', R, W, b1, b2, b3⟩ := connect_ok a2.fine (h.ok (.connect k) (by simp))
  have b1' : Col.step E c0 (.connect k) = .ok c1' := b1
  rw [a3] at b1'; cases b1'
  have fix : ∀ (ev : Event) (s : Nat), s ∈ declares ev →
      (∃ l1 l2 l3, pre ++ .connect k :: post = l1 ++ ev :: (l2 ++ .connect k :: l3)) → c.b.vars s = c0.b.vars s := by
    rintro ev s hs ⟨l1, l2, l3, h3⟩
    have hmem := before_last h3.symm hlast
    obtain ⟨m1, m2, rfl⟩ := List.append_of_mem hmem
    have hon := h.once
    rw [List.append_assoc, List.cons_append] at hon
    obtain ⟨_, o2⟩ := once_split (y := s) hon (by simp [hs])
    rw [a6.fixed fun e he => o2 e (by simp [he]), b2.grew.fixed _ id]
  have he0 : e ∈ c0.b.vars p.sym := by rw [← fix (.port p) p.sym (by simp [declares]) hb]; exact he
  have hm0 : c0.b.vars.lookup x r = some m := by
    unfold VarTab.lookup at hm ⊢
    rw [← fix (.variable x ds) x (by simp [declares]) hx]; exact hm
  obtain ⟨b, g1, _⟩ := b3.reads hs ho p.sym j y q ht e he0 h1 h2
  obtain ⟨lsp, g2⟩ := b2.modport y b e.val g1 hk
  exact a6.grew.net.join _ _ (g2 (x, r) (hv lsp) m hm0)

/-- The nodes of an input port that takes its value from an interface variable are entered from the node of the
variable. -/
theorem iface_entry {E : TravEnv} {es : List Event} {c : Col} {s' : Bld} {net : NetGraph} (hw : Whole E es c s' net)
    {x : Nat} {ds : List (Nat × Nat)} {r : BitRange} {m : Nat} (m1 : c.b.vars.lookup x r = some m)
    {p : PortDecl} {k : Conn} {i j : Nat} (hi : p.inner = some i) (hfrom : FromIface E es c.cuts p k j x ds r)
    {e : Ivl Nat} (he : e ∈ c.b.vars p.sym) (e1 : e.lo ≤ j) (e2 : (j : Int) ≤ e.hi) : Joined net m e.val := by
  obtain ⟨ho, hb, ⟨f, hf⟩, hfrom⟩ := hfrom
  rcases hfrom with ⟨hx', y, q, hs, ht, hk, hv⟩ | ⟨hk, hun, ht⟩
  · exact hw.early.join _ _ (connect_modport hw.walk hb hs ho ht hk he e1 e2 hx' hv m1)
  · have hq := connect_whole hw.walk hb ho hf hi ht hk he e1 e2
    refine hw.look _ _ _ _ m (hw.queue _ hq) ?_
    obtain ⟨s, W, hv, hdone⟩ := hw.done
    have := hdone.same x hun
    rw [hv] at this
    unfold VarTab.lookup at m1 ⊢
    rw [this]; exact m1

/-- An input port that takes its value from an interface variable is entered from the node of the variable. -/
theorem iface_input {E : TravEnv} {es : List Event} {c : Col} {s' : Bld} {net : NetGraph} (hw : Whole E es c s' net)
    {x : Nat} {ds : List (Nat × Nat)} {r : BitRange} {m : Nat} (m1 : c.b.vars.lookup x r = some m)
    {p : PortDecl} {k : Conn} {i j : Nat} (hbit : HasBit p i j) (hfrom : FromIface E es c.cuts p k j x ds r) :
    ∃ n, PortNode E.D net p j n ∧ Joined net m n := by
  have hp : .port p ∈ es := (before_mem hfrom.2.1).1
  obtain ⟨e, he, e1, e2⟩ := (port_at hw.walk hp).1 i j hbit
  have hdat := (port_at hw.walk hp).2.1 i hbit.1 e he
  have hn := (hw.walk.eff.fine.ok.vars p.sym e he).1
  refine ⟨e.val, ⟨hw.early.nodes _ hn, i, ⟨e.lo, e.hi⟩, hbit.1, .inl ⟨e1, e2⟩, ?_⟩,
    iface_entry hw m1 hbit.1 hfrom he e1 e2⟩
  rw [hw.early.data _ hn, hdat]; rfl

end Verif.Proofs

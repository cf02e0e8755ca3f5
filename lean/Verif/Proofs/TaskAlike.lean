import Verif.Proofs.TaskRun

/-! Graphs with the same nodes and annotations get the same annotations (C98). -/
namespace Verif.Proofs
open Verif.Model Verif.Spec

/-- A graph in which the nodes have been numbered in order. -/
structure NetFit (net : NetGraph) : Prop where
  out : OutOk net.g
  lt : ∀ n ∈ net.g.nodes, n < net.g.nextNode

theorem NetFit.of_reach {net : NetGraph} (h : Reachable net) : NetFit net :=
  ⟨OutOk.of_reach h, fun n hn => ((ginv_start h).base n hn).2⟩

/-- Requests that succeed are between nodes of the graph. -/
theorem requests_in {ds : List Dep} : ∀ {net net' : NetGraph}, NetFit net → net.addDependencies ds = some net' →
    ∀ d ∈ ds, d.src ∈ net.g.nodes ∧ d.tgt ∈ net.g.nodes := by
  induction ds with
  | nil => intro _ _ _ _ d hd; cases hd
  | cons d ds ih =>
    intro net net' hf h
    by_cases hd : d.src ∈ net.g.nodes ∧ d.tgt ∈ net.g.nodes
    · obtain ⟨n1, e1, o1, _, g1, x1, _⟩ := addDependency_out hf.out hd.1 hd.2 hf.lt
      simp only [NetGraph.addDependencies, e1] at h
      have := ih ⟨o1, by rw [g1, x1]; exact hf.lt⟩ h
      rw [g1] at this
      intro x hx
      rcases List.mem_cons.1 hx with rfl | hx
      · exact hd
      · exact this x hx
    · simp [NetGraph.addDependencies, addDependency_none hd] at h

/-- The same nodes and annotations. -/
structure NetAlike (a b : NetGraph) : Prop where
  nodes : a.g.nodes = b.g.nodes
  data : a.data = b.data
  annots : ∀ x y, annots a x y = annots b x y

theorem NetAlike.symm {a b : NetGraph} (h : NetAlike a b) : NetAlike b a :=
  ⟨h.nodes.symm, h.data.symm, fun x y => (h.annots x y).symm⟩

theorem NetAlike.add {a b a' : NetGraph} (h : NetAlike a b) (ha : NetFit a) (hb : NetFit b) {ds : List Dep}
    (hd : a.addDependencies ds = some a') : ∃ b', b.addDependencies ds = some b' ∧ NetAlike a' b' := by
  have hm := requests_in ha hd
  obtain ⟨a2, e1, d1, g1, n1⟩ := addDependencies_out ha.out ha.lt hm
  rw [hd] at e1
  cases e1
  obtain ⟨b', e2, d2, g2, n2⟩ := addDependencies_out hb.out hb.lt (ds := ds) (by rw [← h.nodes]; exact hm)
  exact ⟨b', e2, by rw [g1, g2, h.nodes], by rw [d1, d2, h.data], fun x y => by rw [n1, n2, h.data, h.annots]⟩

theorem renamed_alike {f : Nat → Nat} {a b b' : NetGraph} (h : Renamed f a b) (hb : NetAlike b' b) : Renamed f a b' :=
  ⟨by rw [hb.nodes]; exact h.into, by rw [hb.nodes]; exact h.onto, h.inj, by rw [hb.data]; exact h.data,
    fun x hx y hy => by rw [hb.annots]; exact h.edges x hx y hy⟩

theorem NetAlike.sequential {c : ResolveCtx} {a b a' : NetGraph} {q : List Pending} (h : NetAlike a b) (ha : NetFit a)
    (hb : NetFit b) (hr : resolveSequential c a q = .ok a') :
    ∃ b', resolveSequential c b q = .ok b' ∧ NetAlike a' b' := by
  unfold resolveSequential at hr ⊢
  split at hr
  · cases hr
  · rename_i ds he
    split at hr
    · cases hr
    · rename_i n hn
      cases hr
      obtain ⟨b', h1, h2⟩ := h.add ha hb hn
      exact ⟨b', by simp only [h1], h2⟩

theorem NetAlike.parallel {c : ResolveCtx} {addr : Nat → Nat} {a b a' : NetGraph} {q : List Pending} (h : NetAlike a b)
    (ha : NetFit a) (hb : NetFit b) (hr : ResolvesParallel c addr a q a') :
    ∃ b', ResolvesParallel c addr b q b' ∧ NetAlike a' b' := by
  obtain ⟨q', bl, dss, ds, h1, h2, h3, h4, h5⟩ := hr
  obtain ⟨b', h6, h7⟩ := h.add ha hb h5
  exact ⟨b', ⟨q', bl, dss, ds, h1, h2, h3, h4, h6⟩, h7⟩

end Verif.Proofs

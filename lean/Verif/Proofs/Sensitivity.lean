import Verif.Spec.Sequential
import Verif.Props.Pending

/-! Helper lemmas: the effect of merging one driven range. -/
namespace Verif.Proofs
open Verif.Spec Verif.Model Verif.Props

theorem varLookup_mem {t : VarTab} {sym : Nat} {b : BitRange} {n : Nat}
    (h : t.lookup sym b = some n) : ∃ e ∈ t sym, e.val = n ∧ (⟨e.lo, e.hi⟩ : BitRange) = b := by
  obtain ⟨e, he, rfl⟩ := Option.map_eq_some_iff.1 h
  have hp := List.find?_some he
  exact ⟨e, (List.mem_filter.1 (List.mem_of_find?_eq_some he)).1, rfl, by simpa using hp⟩

theorem varInsert_mem {t : VarTab} {s sym : Nat} {b : BitRange} {n : Nat} {e : Ivl Nat} :
    e ∈ (t.insert s b n) sym ↔ e ∈ t sym ∨ (sym = s ∧ e = ⟨b.lower, b.upper, n⟩) := by
  unfold VarTab.insert
  by_cases h : sym = s
  · subst h; simp only [if_true, imInsert_mem, true_and]; exact Or.comm
  · simp [h]

/-- A new node has no edges and leaves all others alone. -/
theorem newNode_spec {net : NetGraph} (hr : Reachable net) (d : NodeData) :
    ∃ net', net.call (.addNode d) = some net' ∧ Reachable net' ∧
      net'.g.nodes = net.g.nodes ++ [net.g.nextNode] ∧ net.g.nextNode ∉ net.g.nodes ∧
      net'.data = (fun n => if n = net.g.nextNode then d else net.data n) ∧
      (∀ a b, annots net' a b = annots net a b) ∧
      ∀ a b, (a = net.g.nextNode ∨ b = net.g.nextNode) → annots net a b = [] := by
  obtain ⟨A, hrel, hi⟩ := reachable_rel hr
  have hs := call_sim hrel hi .addNode
  simp only [AbsGraph.call] at hs
  obtain ⟨g', h1, h2⟩ := hs
  have hcall : ∃ net', net.call (.addNode d) = some net' ∧ net'.g = g' ∧
      net'.data = (fun n => if n = net.g.nextNode then d else net.data n) ∧
      net'.attr = fun e => if e = net.g.nextEdge then {} else net.attr e := by
    simp only [NetGraph.call, NetOp.gop, h1]
    exact ⟨_, rfl, rfl, rfl, rfl⟩
  obtain ⟨net', hc, hg, hd, ha⟩ := hcall
  have hfresh : net.g.nextNode ∉ net.g.nodes := by
    rw [hrel.nodes, hrel.nextNode]
    intro h; exact Nat.lt_irrefl _ (hi.fresh _ h)
  refine ⟨net', hc, reach_call hr hc, ?_, hfresh, hd, ?_, ?_⟩
  · rw [hg, h2.nodes, hrel.nodes, hrel.nextNode]
  · intro a b
    rw [annots_eq (hg ▸ h2), annots_eq hrel]
    unfold annotsA
    simp only
    refine List.map_congr_left fun e he => ?_
    have := (hi.ends e (List.mem_filter.1 he).1).2.2
    rw [ha]
    simp only
    rw [if_neg]
    rw [hrel.nextEdge]; omega
  · intro a b hab
    rw [annots_eq hrel]
    unfold annotsA
    rw [List.map_eq_nil_iff, List.filter_eq_nil_iff]
    intro e he hc
    simp only [Bool.and_eq_true, beq_iff_eq] at hc
    obtain ⟨e1, e2, _⟩ := hi.ends e he
    rw [hrel.nodes] at hfresh
    rcases hab with h | h
    · rw [hc.1, h] at e1; exact hfresh e1
    · rw [hc.2, h] at e2; exact hfresh e2

theorem addDeps_spec {s : Bld} (hr : Reachable s.net) {ds : List Dep}
    (hn : ∀ d ∈ ds, d.src ∈ s.net.g.nodes ∧ d.tgt ∈ s.net.g.nodes) :
    ∃ net', s.addDeps ds = .ok { s with net := net' } ∧ s.net.addDependencies ds = some net' ∧
      Reachable net' ∧ net'.data = s.net.data ∧ net'.g.nodes = s.net.g.nodes ∧
      ∀ a t, annots net' a t = annFold s.net.data (annots s.net a t) (reqs ds a t) := by
  obtain ⟨net', h1, h2, h3, h4, h5⟩ := addDependencies_spec hr hn
  exact ⟨net', by simp [Bld.addDeps, h1], h1, h2, h3, h4, h5⟩

theorem mem_driverDeps {l : List DriverInfo} {tgt : Nat} {ref : SymRef} {b : BitRange} {d : Dep} :
    d ∈ driverDeps l tgt ref b ↔ ∃ x ∈ l, x.node = some d.src ∧ d.tgt = tgt ∧ d.sym = some ref ∧
      d.bounds = b ∧ d.kind = .none := by
  unfold driverDeps
  rw [List.mem_filterMap]
  constructor
  · rintro ⟨x, hx, h⟩
    obtain ⟨n, hn, rfl⟩ := Option.map_eq_some_iff.1 h
    exact ⟨x, hx, hn, rfl, rfl, rfl, rfl⟩
  · rintro ⟨x, hx, hn, h1, h2, h3, h4⟩
    refine ⟨x, hx, ?_⟩
    rw [hn]
    cases d; simp_all

theorem portNodeFor_mem {s : Bld} {port : Nat} {b : BitRange} {n : Nat}
    (h : portNodeFor s port b = some n) : ∃ e ∈ s.vars port, e.val = n := by
  unfold portNodeFor at h
  split at h
  · rename_i m hm
    cases h
    obtain ⟨e, he, h1, _⟩ := varLookup_mem hm
    exact ⟨e, he, h1⟩
  · have := List.mem_of_find?_eq_some h
    obtain ⟨e, he, h1⟩ := List.mem_map.1 this
    exact ⟨e, he, h1⟩

/-- The dependencies of an output port lead from the drivers to one registered port node. -/
theorem mem_hookupDeps {D : Design} {s : Bld} {sym : Nat} {b : BitRange} {l : List DriverInfo}
    {d : Dep} (h : d ∈ hookupDeps D s sym b l) :
    (∃ x ∈ l, x.node = some d.src) ∧ d.sym = some (D.ref sym) ∧ d.bounds = b ∧ d.kind = .none ∧
      ∃ port, D.port sym = some port ∧ ∃ e ∈ s.vars port, e.val = d.tgt := by
  unfold hookupDeps at h
  split at h
  · cases h
  · rename_i port hp
    split at h
    · cases h
    · rename_i pn hpn
      obtain ⟨x, hx, h1, h2, h3, h4, h5⟩ := mem_driverDeps.1 h
      obtain ⟨e, he, h6⟩ := portNodeFor_mem hpn
      exact ⟨⟨x, hx, h1⟩, h3, h4, h5, port, hp, e, he, h6.trans h2.symm⟩

/-- The extra dependencies lead from the drivers to registered variable nodes. -/
theorem mem_extraDeps {D : Design} {s : Bld} {sym : Nat} {b : BitRange} {l : List DriverInfo}
    {d : Dep} (h : d ∈ extraDeps D s sym b l) :
    (∃ x ∈ l, x.node = some d.src) ∧ d.sym = some (D.ref sym) ∧ d.kind = .none ∧
      ((D.kind sym = .modportPort ∧ ∃ x ∈ l, x.node = some d.src ∧ ∃ v ∈ D.iface sym x.lsp,
          s.vars.lookup v.1 v.2 = some d.tgt ∧ d.bounds = v.2) ∨
       (D.kind sym = .variable ∧ s.vars.lookup sym b = some d.tgt ∧
          d.bounds = ((s.net.data d.tgt).bounds).getD b)) := by
  unfold extraDeps at h
  obtain ⟨x, hx, h⟩ := List.mem_flatMap.1 h
  split at h
  · cases h
  · rename_i n hn
    split at h
    · rename_i hk
      obtain ⟨v, hv, h1⟩ := List.mem_filterMap.1 h
      obtain ⟨vn, h2, rfl⟩ := Option.map_eq_some_iff.1 h1
      exact ⟨⟨x, hx, hn⟩, rfl, rfl, .inl ⟨hk, x, hx, hn, v, hv, h2, rfl⟩⟩
    · rename_i hk
      split at h
      · cases h
      · rename_i vn hvn
        simp only [List.mem_singleton] at h
        subst h
        exact ⟨⟨x, hx, hn⟩, rfl, rfl, .inr ⟨hk, hvn, rfl⟩⟩
    · cases h

/-- The dependencies added for one range of a sequential block whose register is `st`. -/
def seqDeps (D : Design) (s2 : Bld) (st sym : Nat) (b : BitRange) (l : List DriverInfo) :
    List Dep :=
  driverDeps l st (D.ref sym) b ++ hookupDeps D s2 sym b [⟨some st, 0⟩] ++ extraDeps D s2 sym b l

/-- One driven range of a sequential block. -/
theorem mergeSeq_spec {D : Design} {s : Bld} {sens : List SensEntry} {w : Driven}
    (hs : BldOk s) (hl : DriversIn s.net w) :
    ∃ s' st net1, s.mergeSeq D sens w.sym w.bounds w.drivers = .ok s' ∧ BldOk s' ∧
      st ∉ s.net.g.nodes ∧ s'.net.g.nodes = s.net.g.nodes ++ [st] ∧
      s'.net.data = (fun n => if n = st then
        .state (D.ref w.sym).name (D.ref w.sym).path (D.ref w.sym).loc w.bounds
        else s.net.data n) ∧
      s'.vars = s.vars.insert w.sym w.bounds st ∧ s'.trk = s.trk ∧ s'.drv = s.drv ∧
      s'.queue = s.queue ++ clockReads D sens st ∧
      net1.data = s'.net.data ∧ Reachable net1 ∧ (∀ a t, annots net1 a t = annots s.net a t) ∧
      (∀ a t, a = st ∨ t = st → annots s.net a t = []) ∧
      (∀ d ∈ seqDeps D ⟨net1, s'.vars, s.trk, s.drv, s'.queue⟩ st w.sym w.bounds w.drivers,
        d.src ∈ net1.g.nodes ∧ d.tgt ∈ net1.g.nodes) ∧
      net1.addDependencies (seqDeps D ⟨net1, s'.vars, s.trk, s.drv, s'.queue⟩ st w.sym w.bounds
        w.drivers) = some s'.net := by
  obtain ⟨net1, h1, h2, h3, h4, h5, h6, h7⟩ := newNode_spec hs.reach
    (.state (D.ref w.sym).name (D.ref w.sym).path (D.ref w.sym).loc w.bounds)
  have hvars : ∀ sym, ∀ e ∈ (s.vars.insert w.sym w.bounds s.net.g.nextNode) sym,
      e.val ∈ net1.g.nodes ∧
      ∃ nb, (net1.data e.val).bounds = some nb ∧ nb.lower = e.lo ∧ nb.upper = e.hi := by
    intro sym e he
    rcases varInsert_mem.1 he with he | ⟨_, rfl⟩
    · obtain ⟨g1, nb, g2, g3⟩ := hs.vars sym e he
      refine ⟨by rw [h3]; exact List.mem_append_left _ g1, nb, ?_, g3⟩
      rw [h5]; simp only
      rw [if_neg (fun h : e.val = s.net.g.nextNode => h4 (h ▸ g1))]; exact g2
    · refine ⟨by rw [h3]; simp, w.bounds, ?_, rfl, rfl⟩
      rw [h5]; simp [NodeData.bounds]
  have hnodes : ∀ d ∈ seqDeps D ⟨net1, s.vars.insert w.sym w.bounds s.net.g.nextNode, s.trk, s.drv,
      s.queue ++ clockReads D sens s.net.g.nextNode⟩ s.net.g.nextNode w.sym w.bounds w.drivers,
      d.src ∈ net1.g.nodes ∧ d.tgt ∈ net1.g.nodes := by
    intro d hd
    unfold seqDeps at hd
    simp only [List.mem_append] at hd
    rcases hd with (hd | hd) | hd
    · obtain ⟨x, hx, hn, ht, _⟩ := mem_driverDeps.1 hd
      rw [h3, ht]
      exact ⟨List.mem_append_left _ (hl x hx _ hn), by simp⟩
    · obtain ⟨⟨x, hx, hn⟩, _, _, _, port, _, e, he, ht⟩ := mem_hookupDeps hd
      simp only [List.mem_singleton] at hx
      subst hx
      simp only [Option.some.injEq] at hn
      refine ⟨by rw [h3, ← hn]; simp, ?_⟩
      rw [← ht]; exact (hvars _ _ he).1
    · obtain ⟨⟨x, hx, hn⟩, _, _, hh⟩ := mem_extraDeps hd
      refine ⟨by rw [h3]; exact List.mem_append_left _ (hl x hx _ hn), ?_⟩
      rcases hh with ⟨_, _, _, _, v, _, hv, _⟩ | ⟨_, hv, _⟩
      · obtain ⟨e, he, h8, _⟩ := varLookup_mem hv
        rw [← h8]; exact (hvars _ _ he).1
      · obtain ⟨e, he, h8, _⟩ := varLookup_mem hv
        rw [← h8]; exact (hvars _ _ he).1
  obtain ⟨net2, k1, k0, k2, k3, k4, k5⟩ := addDeps_spec
    (s := ⟨net1, s.vars.insert w.sym w.bounds s.net.g.nextNode, s.trk, s.drv,
      s.queue ++ clockReads D sens s.net.g.nextNode⟩) h2 hnodes
  refine ⟨⟨net2, s.vars.insert w.sym w.bounds s.net.g.nextNode, s.trk, s.drv,
      s.queue ++ clockReads D sens s.net.g.nextNode⟩, s.net.g.nextNode, net1, ?_, ?_, h4, ?_, ?_, rfl,
    rfl, rfl, rfl, ?_, h2, h6, h7, ?_, ?_⟩
  · simp only [Bld.mergeSeq, Bld.createState, h1]
    exact k1
  · refine ⟨k2, ?_, ?_⟩
    · intro sym e he
      simp only [k3, k4]
      exact hvars sym e he
    · intro p hp n hn
      simp only [k4]
      rw [h3]
      rcases List.mem_append.1 hp with hp | hp
      · exact List.mem_append_left _ (hs.pend p hp n hn)
      · unfold clockReads at hp
        obtain ⟨e, _, he⟩ := List.mem_filterMap.1 hp
        split at he
        · cases he
        · cases he; cases hn; simp
  · simp only [k4]; exact h3
  · simp only [k3]; exact h5
  · simp only [k3]
  · exact hnodes
  · exact k0

end Verif.Proofs

import Verif.Proofs.Clock
import Verif.Props.Influence

/-! C81: without a path, registers included, there is no influence over time. -/
namespace Verif.Props
open Verif.Model Verif.Spec Verif.Proofs

/-! ### Dependences over time are paths of the netlist -/

/-- The register of a signal that is written and read as a whole is entered from the assignments that can
leave it its value, and enters what reads it and the nodes for which a read is postponed. -/
theorem register_path {E : TravEnv} {boxed : Str → Str → Bool} {ord : Tracker → List (Nat × Nat)}
    {top : List Member} (h : Buildable E boxed ord top) {c : Col} {net : NetGraph} (hc1 : phase1 E top = .ok c)
    (hn : netlist E ord top = .ok net)
    {b1 : Deferred} {x j : Nat} {loc : TextLoc}
    (hr : ∀ w ∈ allWrites b1.stmt, w.sym = x → WellKept E (eventsAll boxed E.opts.propCuts top) c.cuts b1 w)
    (hb : b1 ∈ blocksOf (eventsAll boxed E.opts.propCuts top)) (hk : Kept b1 x j) (hl : Leaves b1.stmt x j loc) :
    ∃ k st, k ∈ net.g.nodes ∧ net.data k = .assignment loc ∧ Joined net k st ∧
      (∀ w ∈ allWrites b1.stmt, w.sym = x → ∀ n g, (⟨x, w.bounds, some n, g⟩ : Pending) ∈ c.b.queue → Joined net st n) ∧
      ∀ b2 ∈ blocksOf (eventsAll boxed E.opts.propCuts top), ∀ who r Q, Use Start b2.stmt who r Q → (∃ tr, Q tr) →
        ReadFits (allWrites b2.stmt) r.sym r.bounds → r.sym = x →
        (∀ p, InRng r.bounds p → ∀ tr, Q tr → ∀ w ∈ tr, ¬ Hits true x p w) →
        ∃ n ∈ net.g.nodes, net.data n = who ∧ Joined net st n := by
  obtain ⟨c', s, s', net', a1, a2, a3, a4, a5, a6, a7, a8⟩ := built h
  rw [hc1] at a1
  cases a1
  rw [hn] at a7
  cases a7
  obtain ⟨hc, w, hw, hh⟩ := hk
  obtain ⟨_, rfl, _⟩ := hh
  obtain ⟨r1, r2, r3⟩ := (hr w hw rfl).range
  obtain ⟨k1, k2, ⟨pre, post, k3, k4⟩, _⟩ := (hr w hw rfl).alone
  obtain ⟨s0, b1', _, _, b4, b5, _⟩ := start_at a8.walk.eff.fine
    (plain_sub (fun w hw => List.mem_append_left _ hw) (h.plain c hc1))
  rw [a2] at b1'
  cases b1'
  have hv : s.vars w.sym = [] := by rw [b4, a8.walk.eff.fixed k2]
  rw [a3, k3] at a4 a6
  obtain ⟨net', st, g1, g2, g3, g4, g6, g5⟩ := register_to_block_partial E.D a4 r1 hv k4 hc r2 hl
  rw [a6] at g1
  cases g1
  obtain ⟨k, e1, e2, e3⟩ := g4 j loc hl
  refine ⟨k, st, e1, e2, e3, fun v hv' hs n g hq => ?_, fun b2 hb2 who r Q hu hq hf hx hno => ?_⟩
  · rw [r2 v hv' hs] at hq
    exact g6 n g (b5 ▸ hq)
  · have hrb := r3 b2 hb2 who r Q hu hx
    rw [hrb] at hf hno
    rw [hx] at hf
    exact g5 b2 (by rw [← k3]; exact hb2) who r Q hu hq hx hrb k1 hf hno

theorem hands_kind {E : TravEnv} {es : List Event} {cuts : CutReg} {u v : NodeData} (h : Hands E es cuts u v) :
    v.kind = .assignment ∨ v.kind = .conditional ∨ v.kind = .case := by
  cases h with
  | pass h => exact passes_kind h
  | keep _ _ _ _ _ h => exact use_kind h
  | enter _ _ _ _ _ _ _ h => exact use_kind h
  | cross _ _ _ h => exact crosses_kind h
  | out _ _ _ _ _ _ h => exact use_kind h

/-- A chain of dependences over time is a path of the netlist. -/
theorem hands_reach {E : TravEnv} {boxed : Str → Str → Bool} {ord : Tracker → List (Nat × Nat)}
    {top : List Member} (h : Buildable E boxed ord top) {c : Col} {net : NetGraph} (hc : phase1 E top = .ok c)
    (hn : netlist E ord top = .ok net) (hd : Distinct (eventsAll boxed E.opts.propCuts top))
    (ht : ∀ b ∈ blocksOf (eventsAll boxed E.opts.propCuts top), Clocked b → ∀ w ∈ allWrites b.stmt,
      ¬ OnIface E (eventsAll boxed E.opts.propCuts top) w.sym →
        WellKept E (eventsAll boxed E.opts.propCuts top) c.cuts b w) {d v : NodeData}
    (hr : Reach (Hands E (eventsAll boxed E.opts.propCuts top) c.cuts) d v) {n : Nat} (hn' : n ∈ net.g.nodes)
    (e : net.data n = d) (hk : d.kind = .assignment ∨ d.kind = .conditional ∨ d.kind = .case) :
    ∃ m ∈ net.g.nodes, net.data m = v ∧ Reach (Joined net) n m := by
  obtain ⟨s', hw⟩ := built_of h hc hn
  induction hr with
  | refl => exact ⟨n, hn', e, .refl⟩
  | tail h3 h4 ih =>
    obtain ⟨m, m1, m2, m3⟩ := ih
    have hk' : (net.data m).kind = .assignment ∨ (net.data m).kind = .conditional ∨ (net.data m).kind = .case := by
      rw [m2]
      cases h3 with
      | refl => exact hk
      | tail _ h => exact hands_kind h
    suffices ∃ a ∈ net.g.nodes, ∃ k ∈ net.g.nodes, net.data a = net.data m ∧ net.data k = _ ∧ Reach (Joined net) a k by
      obtain ⟨a, a1, k, k1, k2, k3, k4⟩ := this
      have : a = m := text_unique h hn hd a1 m1 k2 hk'
      subst this
      exact ⟨k, k1, k3, reach_trans m3 k4⟩
    rw [m2]
    cases h4 with
    | pass h4 =>
      obtain ⟨a, a1, x, k, k1, k2, k3, k4, k5⟩ := passes_hops hw h4
      exact ⟨a, a1, k, k1, k2, k3, (hops_joined k4).tail k5.1⟩
    | cross g1 _ g3 g4 =>
      obtain ⟨a, a1, x, k, k1, k2, k3, k4, k5⟩ := crosses_hops hw g1 g3 g4
      exact ⟨a, a1, k, k1, k2, k3, (hops_joined k4).tail k5.1⟩
    | keep g1 g2 g0 g3 g4 g5 g6 g7 g8 g9 g10 =>
      obtain ⟨k, st, e1, e2, e3, _, e5⟩ := register_path h hc hn (fun w hw e => ht _ g1 g2.1 w hw (e ▸ g0)) g1 g2 g3
      obtain ⟨n', f1, f2, f3⟩ := e5 _ g4 _ _ _ g5 g6 g7 g8 g10
      exact ⟨k, e1, n', f1, e2, f2, (Reach.refl.tail e3).tail f3⟩
    | @enter b1 b2 x j y q z i loc who r Q g1 g2 g0 g3 g4 g5 g6 g7 g8 g9 g10 g11 g12 g13 g14 =>
      subst g10
      obtain ⟨k, st, e1, e2, e3, e4, _⟩ := register_path h hc hn (fun w hw e => ht _ g1 g2.1 w hw (e ▸ g0)) g1 g2 g3
      obtain ⟨hcl, w, hw1, hw2, rfl, hw3⟩ := g2
      obtain ⟨q1, _, _, q2⟩ := (ht b1 g1 hcl w hw1 g0).alone
      obtain ⟨p, kn, c1, ⟨c2, c3, c4⟩, c5⟩ := g4
      have hta := q2 p kn j y q c1 ⟨c2, c3, c4⟩ c5 hw3
      obtain ⟨_, _, _, p4⟩ := port_at hw.walk (last_mem c5)
      obtain ⟨e, p5, p6, p7, p8⟩ := p4 y q c5
      obtain ⟨⟨i0, hf⟩, _⟩ := c4
      have hpend := connect_whole hw.walk c2 c1 hf (last_inner c5) hta q1 p5 p6 p7
      obtain ⟨a', d1, d2⟩ := down hw g5 (hw.keep _ _ _ p8)
      obtain ⟨s, W, hv, hd⟩ := hw.done
      obtain ⟨n, n1, _, n3, n4⟩ := hd.uses b2 g6 _ r Q g7 g8 g9
      obtain ⟨⟨ps, pb, pn, pg⟩, hp, f1, f2, _, f4⟩ := n4.queued g13 i g11 g12
      simp only at f1 f2 f4
      subst f1 f2
      exact ⟨k, e1, n, hw.late.nodes n n1, e2, by rw [hw.late.data n n1, n3],
        (reach_trans ((Reach.refl.tail e3).tail (e4 w hw1 rfl _ _ hpend)) (hops_joined d2)).tail
          (hw.read _ g14 pb n pg i hp f4 _ d1)⟩
    | out g1 g2 g3 g4 g5 g6 g7 g8 g9 g10 g11 g12 g13 g14 =>
      exact hierarchy_path_partial h hc hn g1 g6 g3 g4 g5 g7 g8 g9 g10 g11 g12 g13 g14

/-- Block `b` gives bit `j` of `x` its value: it is edge-triggered and the bit is one of a register, or it
is not. -/
def ValueFrom (b : Deferred) (x j : Nat) : Prop :=
  Kept b x j ∨ (¬ Clocked b ∧ ∃ w ∈ allWrites b.stmt, Hits true x j w)

/-- C81. A design is observed twice, with the same edges of its clocks and the same values of its registers
at the beginning. If a bit that a block gives its value (a register or not) ever differs, then at this time
or before, a bit that comes from outside has differed, and a path leads from a node that reads it (or a bit
of an instance connected to it) to the node of an assignment that can leave the bit its value. Paths may
go through registers. The design is regular and timed, and no combinational loop is reported; assignments and
conditions may compute anything from what they read. The text is that of the marked design as in C71.
Missing: designs that are not regular or not timed, where the netlist may lack a path (see
`influence_lost_first`), and effects on the time at which blocks fire. -/
theorem influence_over_time_partial {V : Type} {M : Meaning V} {E : TravEnv} {boxed : Str → Str → Bool}
    {ord : Tracker → List (Nat × Nat)} {top marked : List Member} {f : TextLoc → TextLoc}
    (h : Buildable E boxed ord top) {c : Col} {net : NetGraph} (hc : phase1 E top = .ok c)
    (hn : netlist E ord top = .ok net) (hm : Marked boxed E.opts.propCuts f marked top) (hl : combLoops net = [])
    (hr : Regular E (eventsAll boxed E.opts.propCuts marked) c.cuts)
    (ht : Timed E (eventsAll boxed E.opts.propCuts marked) c.cuts)
    (hf : Faithful M E (eventsAll boxed E.opts.propCuts marked))
    (hf' : ∀ b ∈ blocksOf (eventsAll boxed E.opts.propCuts marked), Clocked b → Reflects M b.stmt)
    {fire : Nat → Deferred → Bool} {σ σ' : Nat → Vals V}
    (hs : Unrolls M E (eventsAll boxed E.opts.propCuts marked) fire σ)
    (hs' : Unrolls M E (eventsAll boxed E.opts.propCuts marked) fire σ')
    (hi : ∀ b ∈ blocksOf (eventsAll boxed E.opts.propCuts marked), ∀ x j, Kept b x j → σ 0 x j = σ' 0 x j)
    {b : Deferred} (hb : b ∈ blocksOf (eventsAll boxed E.opts.propCuts marked)) {x j t : Nat} (hv : ValueFrom b x j)
    (hne : σ t x j ≠ σ' t x j) :
    ∃ net', netlist E ord marked = .ok net' ∧ net = moveNet f net' ∧ ∃ loc, Leaves b.stmt x j loc ∧
      ∃ t' ≤ t, ∃ s q z i who, Source E (eventsAll boxed E.opts.propCuts marked) c.cuts s q ∧
      ¬ Held E (eventsAll boxed E.opts.propCuts marked) c.cuts s q ∧ σ t' s q ≠ σ' t' s q ∧
      Brings E (eventsAll boxed E.opts.propCuts marked) s q z i ∧
      Sees (eventsAll boxed E.opts.propCuts marked) z i who ∧
      ∃ m ∈ net.g.nodes, ∃ n ∈ net.g.nodes, net'.data m = who ∧ net'.data n = .assignment loc ∧
        Reach (Joined net) m n := by
  obtain ⟨c', net', g1, g2, g3, g4, rfl, g6⟩ := marked_built h hc hn hm hl
  obtain ⟨s'', hw'⟩ := built_of g1 g2 g4
  rw [g3.symm] at g6 hr ht
  have hL : ∀ u v, Passes E (eventsAll boxed E.opts.propCuts marked) c'.cuts u v → u ∈ datas net' := by
    intro u v hp
    obtain ⟨a, a1, _, _, _, a2, _⟩ := passes_hops hw' hp
    exact List.mem_map.2 ⟨a, a1, a2⟩
  have key : ∃ loc, Leaves b.stmt x j loc ∧
      ReachedBy E (eventsAll boxed E.opts.propCuts marked) c'.cuts σ σ' t (.assignment loc) := by
    rcases hv with hv | ⟨hv, hw⟩
    · exact register_reached hr ht hf hf' hs hs' hi _ hL g6 t b hb x j hv hne
    · exact assigned_reached hr ht hf hf' hs hs' hi _ hL g6 hb hv hw hne
  obtain ⟨loc, l1, t', l2, s, q, z, i, who, l3, l4, l5, l6, l7, l8⟩ := key
  have l7' := l7
  obtain ⟨b2, hb2, r, Q, hu, hq, rfl, _, hrf, _⟩ := l7'
  obtain ⟨s, W, hv, hdn⟩ := hw'.done
  obtain ⟨m, m1, _, m3, _⟩ := hdn.uses b2 hb2 who r Q hu hq hrf
  have hdat : net'.data m = who := by rw [hw'.late.data m m1, m3]
  obtain ⟨n, n1, n2, n3⟩ := hands_reach g1 g2 g4 hm.distinct (fun b hb hc w hw _ => wellKept ht hb hc hw) l8 (hw'.late.nodes m m1) hdat (use_kind hu)
  exact ⟨net', g4, rfl, loc, l1, t', l2, _, q, _, i, who, g3 ▸ l3, g3 ▸ l4, l5, l6, l7, m, hw'.late.nodes m m1, n, n1,
    hdat, n2, n3⟩

/-- C81, from input ports to an output port, in terms of the answers of the tool: if it reports no
combinational loop, and answers every query for a path from a node of an input port with a bit that ever
differs to a node of output port `p` with bit `j` by the empty path, then bit `j` of the output is always the
same. Block `b` assigns the inside `x` of the port, which may be a register; the ranges it assigns lie
within a driver of the port and between its cuts. -/
theorem no_path_same_forever_partial {V : Type} {M : Meaning V} {E : TravEnv} {boxed : Str → Str → Bool}
    {ord : Tracker → List (Nat × Nat)} {top marked : List Member} {f : TextLoc → TextLoc}
    (h : Buildable E boxed ord top) {c : Col} {net : NetGraph} (hc : phase1 E top = .ok c)
    (hn : netlist E ord top = .ok net) (hm : Marked boxed E.opts.propCuts f marked top) (hl : combLoops net = [])
    (hr : Regular E (eventsAll boxed E.opts.propCuts marked) c.cuts)
    (ht : Timed E (eventsAll boxed E.opts.propCuts marked) c.cuts)
    (hf : Faithful M E (eventsAll boxed E.opts.propCuts marked))
    (hf' : ∀ b ∈ blocksOf (eventsAll boxed E.opts.propCuts marked), Clocked b → Reflects M b.stmt)
    {fire : Nat → Deferred → Bool} {σ σ' : Nat → Vals V}
    (hs : Unrolls M E (eventsAll boxed E.opts.propCuts marked) fire σ)
    (hs' : Unrolls M E (eventsAll boxed E.opts.propCuts marked) fire σ')
    (hz : ∀ b ∈ blocksOf (eventsAll boxed E.opts.propCuts marked), ∀ x j, Kept b x j → σ 0 x j = σ' 0 x j)
    (hp : ∀ t s q, Source E (eventsAll boxed E.opts.propCuts marked) c.cuts s q →
      ¬ Held E (eventsAll boxed E.opts.propCuts marked) c.cuts s q → σ t s q ≠ σ' t s q →
      Bare (eventsAll boxed E.opts.propCuts marked) s ∧ E.D.kind s ≠ .modportPort ∧
        ∃ p, LastSupply (eventsAll boxed E.opts.propCuts marked) s q p) {b : Deferred}
    (hb : b ∈ blocksOf (eventsAll boxed E.opts.propCuts marked)) {x j : Nat} (hv : ValueFrom b x j) {p : PortDecl}
    (hpo : .port p ∈ eventsAll boxed E.opts.propCuts marked) (hx : E.D.port x = some p.sym) {lo hi : Int}
    (hsp : Spans E c.cuts p x lo hi)
    (hin : ∀ w ∈ allWrites b.stmt, w.sym = x → InRng w.bounds j → lo ≤ w.bounds.lower ∧ w.bounds.upper ≤ hi)
    (hno : ∀ (t s q n m : Nat) p', LastSupply (eventsAll boxed E.opts.propCuts marked) s q p' → σ t s q ≠ σ' t s q →
      PortNode E.D net p' q n → PortNode E.D net p j m → p'.dir ≠ p.dir ∧ findPath net n m = some []) (t : Nat) :
    σ t x j = σ' t x j := by
  refine Classical.byContradiction fun hne => ?_
  obtain ⟨net', g4, rfl, loc, l1, t', l2, s, q, z, i, who, l3, l4, l5, l6, l7, m, m1, n, n1, m2, n2, hmn⟩ :=
    influence_over_time_partial h hc hn hm hl hr ht hf hf' hs hs' hz hb hv hne
  obtain ⟨c', _, k1, k2, k3, k4, _, _⟩ := marked_built h hc hn hm hl
  obtain ⟨s'', hw'⟩ := built_of k1 k2 g4
  obtain ⟨p1, p2, p', p3⟩ := hp t' s q l3 l4 l5
  obtain ⟨a, ⟨a1, y, bd, a2, a3, a4⟩, m', a5, a6, a7⟩ := port_fetch hw' (k3 ▸ hr) p3 p1 p2 l6 l7
  have hu : who.kind = .assignment ∨ who.kind = .conditional ∨ who.kind = .case := by
    obtain ⟨_, _, r, Q, hu, _⟩ := l7
    exact use_kind hu
  have : m' = m := text_unique k1 g4 hm.distinct a5 m1 (a6.trans m2.symm) (by rw [m2]; exact hu)
  subst this
  obtain ⟨e, e1, e2, e3, k, e4, e5, e6, e7⟩ := leave_port hw' hb l1 hin hpo hx (k3 ▸ hsp)
  have hto : Reach (Joined net') n e.val := by
    by_cases hk : Clocked b
    · obtain ⟨n', f1, f2, f3⟩ := (e7 hk).2
      have : n' = n := text_unique k1 g4 hm.distinct f1 n1 (f2.trans n2.symm) (by rw [n2]; exact .inl rfl)
      subst this
      exact (Reach.refl.tail f3).tail e5
    · have : k = n := text_unique k1 g4 hm.distinct e4 n1 ((e6 hk).trans n2.symm) (by rw [n2]; exact .inl rfl)
      subst this
      exact Reach.refl.tail e5
  have hen := (hw'.walk.eff.fine.ok.vars p.sym e e1).1
  have hdat : net'.data e.val = .port (E.D.ref x).name (E.D.ref x).path (E.D.ref x).loc p.dir ⟨e.lo, e.hi⟩ := by
    rw [hw'.early.data _ hen, (port_at hw'.walk hpo).2.1 x hsp.1 e e1]; rfl
  have hpn : PortNode E.D (moveNet f net') p j e.val := by
    refine ⟨hw'.early.nodes _ hen, x, ⟨e.lo, e.hi⟩, hsp.1, (inRng_iff _ _).2 ?_, ?_⟩
    · simp only [BitRange.lower, BitRange.upper]; omega
    · show moveData f (net'.data e.val) = _
      rw [hdat]; rfl
  have hpa : PortNode E.D (moveNet f net') p' q a := by
    refine ⟨a1, y, bd, a2, a3, ?_⟩
    show moveData f (net'.data a) = _
    rw [a4]; rfl
  obtain ⟨hdir, hq⟩ := hno t' s q a e.val p' p3 l5 hpa hpn
  have hne : a ≠ e.val := by
    rintro rfl
    rw [a4] at hdat
    injection hdat with _ _ _ hd _
    exact hdir hd
  obtain ⟨path, f1, _, f3⟩ := path_answers h.design h.visits hn a1 hne
  rw [hq] at f1
  cases f1
  exact f3 rfl (reach_trans (reach_trans (hops_joined (net := net') a7) hmn) hto)

/-! ### Concrete cases -/

/-- Everything a statement reads, with the node that reads it. -/
def usesOf : Stmt → List (NodeData × Ref)
  | .assign loc _ (.legacy notes) => (notes.filter fun x => !x.write).map fun x => (.assignment loc, x.ref)
  | .assign _ _ (.aligned segs) => segs.flatMap fun g => g.rhs.flatMap fun
    | .lsp r => [(.assignment g.loc, r)]
    | .opaque rs => rs.map fun r => (.assignment g.loc, r)
    | _ => []
  | .seq (.branch k loc) (.seq (.reads rs) t) => rs.map (fun r => (if k then .case loc else .conditional loc, r)) ++ usesOf t
  | .seq s t | .choose _ s t => usesOf s ++ usesOf t
  | _ => []

theorem uses_right {s t : Stmt} {x : NodeData × Ref} (h : x ∈ usesOf t) : x ∈ usesOf (.seq s t) := by
  unfold usesOf
  split <;> simp_all [usesOf]

theorem uses_left {s t : Stmt} {x : NodeData × Ref} (h : x ∈ usesOf s) : x ∈ usesOf (.seq s t) := by
  unfold usesOf
  split <;> simp_all [usesOf]

theorem use_of {P Q : List Wr → Prop} {st : Stmt} {who : NodeData} {r : Ref} (h : Use P st who r Q) :
    (who, r) ∈ usesOf st := by
  induction h with
  | note h1 h2 => exact List.mem_map.2 ⟨_, List.mem_filter.2 ⟨h1, rfl⟩, rfl⟩
  | seg h1 h2 h3 =>
    refine List.mem_flatMap.2 ⟨_, h1, List.mem_flatMap.2 ⟨_, h2, ?_⟩⟩
    cases h3 with
    | lsp => exact List.mem_singleton.2 rfl
    | inside h _ => exact List.mem_map.2 ⟨_, h, rfl⟩
  | cond h _ => exact List.mem_append_left _ (List.mem_map.2 ⟨_, h, rfl⟩)
  | left _ ih => exact uses_left ih
  | right _ ih => exact uses_right ih
  | first _ ih => exact List.mem_append_left _ ih
  | second _ ih => exact List.mem_append_right _ ih

/-- The first nodes of a statement, and more. -/
def headsOf : Stmt → List NodeData
  | .assign loc _ a => (asgLocs loc a).map .assignment
  | .branch k loc => [if k then .case loc else .conditional loc]
  | .seq s t | .choose _ s t => headsOf s ++ headsOf t
  | _ => []

theorem heads_of {st : Stmt} {d : NodeData} (h : Heads st d) : d ∈ headsOf st := by
  induction h with
  | assign h => exact List.mem_map.2 ⟨_, h, rfl⟩
  | branch => exact List.mem_singleton.2 rfl
  | left _ ih => exact List.mem_append_left _ ih
  | right _ _ ih => exact List.mem_append_right _ ih
  | first _ ih => exact List.mem_append_left _ ih
  | second _ ih => exact List.mem_append_right _ ih

/-- The conditions of a statement with what follows them, and more. -/
def guardsOf : Stmt → List (NodeData × NodeData)
  | .seq (.branch k loc) t => (headsOf t).map (fun d => (if k then .case loc else .conditional loc, d)) ++ guardsOf t
  | .seq s t | .choose _ s t => guardsOf s ++ guardsOf t
  | _ => []

theorem guards_of {st : Stmt} {u d : NodeData} (h : Guards st u d) : (u, d) ∈ guardsOf st := by
  induction h with
  | here h => exact List.mem_append_left _ (List.mem_map.2 ⟨_, heads_of h, rfl⟩)
  | left _ ih => unfold guardsOf; split <;> simp_all [guardsOf]
  | right _ ih => unfold guardsOf; split <;> simp_all [guardsOf]
  | first _ ih => exact List.mem_append_left _ ih
  | second _ ih => exact List.mem_append_right _ ih

/-- Only blocking assignments read what they write. -/
theorem rereads_write {W : List Wr} {P : List Wr → Prop} {st : Stmt} {loc : TextLoc} (h : Rereads W P st loc) :
    ∃ w ∈ allWrites st, w.blocking = true ∧ w.loc = loc := by
  induction h with
  | @note P loc pre post r p h1 h2 h3 h4 h5 =>
    obtain ⟨w, hw, _⟩ := h4
    simp only [asgWrites, List.mem_map] at hw
    obtain ⟨q, hq, rfl⟩ := hw
    refine ⟨_, List.mem_map.2 ⟨q, ?_, rfl⟩, rfl, rfl⟩
    simp only [targets, List.mem_map, List.mem_filter] at hq ⊢
    obtain ⟨n, hn, e⟩ := hq
    exact ⟨n, ⟨List.mem_append_left _ hn.1, hn.2⟩, e⟩
  | seg _ h1 _ _ h2 =>
    exact ⟨_, List.mem_flatMap.2 ⟨_, h1, List.mem_map.2 ⟨_, h2, rfl⟩⟩, rfl, rfl⟩
  | left _ ih => obtain ⟨w, h, h'⟩ := ih; exact ⟨w, List.mem_append_left _ h, h'⟩
  | right _ ih => obtain ⟨w, h, h'⟩ := ih; exact ⟨w, List.mem_append_right _ h, h'⟩
  | first _ ih => obtain ⟨w, h, h'⟩ := ih; exact ⟨w, List.mem_append_left _ h, h'⟩
  | second _ ih => obtain ⟨w, h, h'⟩ := ih; exact ⟨w, List.mem_append_right _ h, h'⟩

theorem inert_of {es : List Event} {l : TextLoc}
    (h : ∀ b ∈ blocksOf es, (∀ x ∈ usesOf b.stmt, x.1 ≠ .assignment l) ∧
      ∀ w ∈ allWrites b.stmt, w.blocking = true → w.loc ≠ l) : Inert es l := by
  intro b hb
  refine ⟨fun r Q hu => (h b hb).1 _ (use_of hu) rfl, fun hr => ?_⟩
  obtain ⟨w, h1, h2, h3⟩ := rereads_write hr
  exact (h b hb).2 w h1 h2 h3

/-- What is read in the ranges in which it is written. -/
theorem fits_same {W : List Wr} {r : Ref} (h : ∀ w ∈ W, w.sym = r.sym → w.bounds = r.bounds) :
    ReadFits W r.sym r.bounds :=
  .inl fun w hw hs _ p hp => h w hw hs ▸ hp

/-! The design of the example:
```
module t(input [7:0] a, c, output [7:0] y, w);
  always_ff @(posedge clk)
    if (c)                // line 1
      q <= 0;             // line 2
    else
      q <= q ^ a;         // line 3
  assign y = q;           // line 4
  assign w = c;           // line 5
endmodule
```
The insides of the ports are the signals 0, 3, 1 and 4, `q` is signal 2, `clk` is signal 9. -/

def ckB1 : Deferred := .procedural .alwaysFF (.timed (.signalEvent ⟨.posEdge, some 9⟩))
  (.seq (.branch false (ln 1)) (.seq (.reads [dsRef 3])
    (.choose true (.assign (ln 2) false (.aligned [⟨[dsRef 2], [.constant [] 8 (ln 2)], ln 2⟩]))
      (.assign (ln 3) false (.aligned [⟨[dsRef 2], [.opaque [dsRef 2, dsRef 0]], ln 3⟩])))))

def ckTop : List Member := [.inst false ['t'] ['t'] [.port (hdIn 20 0), .port (hdIn 22 3), .port (hdOut 21 1),
  .port (hdOut 23 4), .block ckB1, .block ifB2, .block ifB3] []]

def ckEvents : List Event := [.port (hdIn 20 0), .port (hdIn 22 3), .port (hdOut 21 1), .port (hdOut 23 4),
  .block ckB1, .block ifB2, .block ifB3]

def ckCol : Col := (phase1 hdE ckTop).toOption.getD {}
def ckNet : NetGraph := (netlist hdE Tracker.slots ckTop).toOption.getD {}

theorem ck_events : eventsAll hdBoxed hdE.opts.propCuts ckTop = ckEvents := by
  simp [ckTop, eventsAll, events, hdBoxed, ckEvents]

theorem ck_blocks : blocksOf ckEvents = [ckB1, ifB2, ifB3] := rfl

theorem ck_elab : Elaborated hdE hdBoxed ckTop where
  boxes := by simp [DecidesBoxes, Boxed, hdBoxed, hdE]
  ok := by
    rw [ck_events]
    simp [ckEvents, EventOk, hdIn, hdOut, PortDriver.hi, hdE, hdD]
  once := by
    rw [ck_events]
    show [20, 22, 21, 23].Nodup
    decide

theorem ck_phase1 : phase1 hdE ckTop = .ok ckCol := by
  obtain ⟨c, h, _⟩ := phase1_total_partial ck_elab
  rw [ckCol, h]; rfl

theorem ck_build : Buildable hdE hdBoxed Tracker.slots ckTop where
  design := ck_elab
  plain := by
    intro c hc
    rw [ck_phase1] at hc
    exact Except.ok.inj hc ▸
      plain_of_two (lo := 0) (mid := 3) (hi := 7) (by decide) (by decide) (by decide +kernel) (by decide) (by decide)
  live := by
    rw [ck_events, ck_blocks]
    intro b hb; simp at hb; rcases hb with rfl | rfl | rfl <;> decide
  events := by
    rw [ck_events, ck_blocks]
    intro b hb; simp at hb
    rcases hb with rfl | rfl | rfl
    · simp [ckB1, PlainEvents, SignalEventsOnly, eventsOf, PlainClocks]
    · trivial
    · trivial
  visits := fun _ => List.Perm.refl _
  ports := by
    rw [ck_events, ck_blocks]
    have : ∀ b ∈ [ckB1, ifB2, ifB3], ∀ w ∈ allWrites b.stmt, w.sym < 20 := by
      intro b hb; simp at hb; rcases hb with rfl | rfl | rfl <;> decide
    intro p hp b hb w hw
    have := this b hb w hw
    simp [ckEvents, hdIn, hdOut] at hp
    rcases hp with rfl | rfl | rfl | rfl <;> simp only <;> omega

theorem ck_net : netlist hdE Tracker.slots ckTop = .ok ckNet := by
  obtain ⟨_, _, net, _, _, _, _, h, _⟩ := netlist_total_partial ck_build
  rw [ckNet, h]; rfl

theorem ck_marked : Marked hdBoxed hdE.opts.propCuts id ckTop ckTop :=
  ⟨rfl, distinct_of_nodup (by rw [ck_events]; decide +kernel)⟩

theorem ck_loops : combLoops ckNet = [] := by decide +kernel

theorem ck_clocked : Clocked ckB1 := ⟨⟨_, List.mem_singleton.2 rfl, by decide⟩, by simp [ckB1, blockEvents, eventsOf]⟩

theorem ck_comb {b : Deferred} (hb : b ∈ blocksOf ckEvents) (hc : ¬ Clocked b) : b = ifB2 ∨ b = ifB3 := by
  rw [ck_blocks] at hb; simp at hb
  rcases hb with rfl | h
  · exact absurd ck_clocked hc
  · exact h

theorem ck_reg {b : Deferred} (hb : b ∈ blocksOf ckEvents) (hc : Clocked b) : b = ckB1 := by
  rw [ck_blocks] at hb; simp at hb
  rcases hb with h | rfl | rfl
  · exact h
  · exact absurd hc (if_clocked (by simp))
  · exact absurd hc (if_clocked (by simp))

theorem ck_declares {y : Nat} (h : y < 20) : ∀ ev ∈ ckEvents, y ∉ declares ev := by
  intro ev hev hy
  simp [ckEvents] at hev
  rcases hev with rfl | rfl | rfl | rfl | rfl | rfl | rfl <;> simp [declares, hdIn, hdOut] at hy <;> omega

theorem ck_writes {w : Wr} (hw : w ∈ allWrites ckB1.stmt) : w = ⟨2, ⟨0, 7⟩, ln 2, false⟩ ∨ w = ⟨2, ⟨0, 7⟩, ln 3, false⟩ := by
  simpa [ckB1, Deferred.stmt, allWrites, asgWrites, dsRef] using hw

theorem ck_bare {y : Nat} (h : y < 20) (h2 : y ≠ 2) : Bare ckEvents y := by
  refine ⟨ck_declares h, fun b hb hc w hw => ?_⟩
  obtain rfl := ck_reg hb hc
  rcases ck_writes hw with rfl | rfl <;> exact fun e => h2 e.symm

theorem ck_no_conn {p : PortDecl} {k : Conn} : ¬ Before ckEvents p k := by
  intro h
  have := (before_mem h).2
  simp [ckEvents] at this

theorem ck_no_inlet {y q x j : Nat} : ¬ Inlet hdE ckEvents y q x j := by
  rintro ⟨p, k, _, h, _⟩
  exact ck_no_conn h.1

theorem ck_no_up {prev : Option Conn} {x y j q : Nat} {lo hi : Int} {cuts : CutReg} :
    ¬ Up hdE ckEvents cuts prev x lo hi j y q := by
  intro h
  cases h with
  | one h => obtain ⟨p, _, h, _⟩ := h; exact ck_no_conn h.1
  | more h _ => obtain ⟨p, _, h, _⟩ := h; exact ck_no_conn h.1

theorem ck_assigned {y q : Nat} {cuts : CutReg} (h : Assigned hdE ckEvents cuts y q) : y = 1 ∨ y = 4 := by
  obtain ⟨b, hb, hc, x, j, ⟨w, hw, _, hx, _⟩, h⟩ := h
  rcases h with ⟨_, rfl, _⟩ | ⟨_, _, _, h⟩
  · have : ∀ b ∈ [ifB2, ifB3], ∀ w ∈ allWrites b.stmt, w.sym = 1 ∨ w.sym = 4 := by
      intro b hb; simp at hb; rcases hb with rfl | rfl <;> decide
    rw [← hx]; exact this b (by simpa using ck_comb hb hc) w hw
  · exact absurd h ck_no_up

theorem ck_regular (cuts : CutReg) : Regular hdE ckEvents cuts where
  comb := by
    intro b hb hc
    rcases ck_comb hb hc with rfl | rfl <;> exact comb_single (by decide)
  settled := by
    intro b hb hc
    rcases ck_comb hb hc with rfl | rfl <;> exact settled_apart (by decide) (by decide)
  complete := by
    intro b hb hc x p ⟨w, hw, hh⟩ tr ht
    rcases ck_comb hb hc with rfl | rfl <;> cases ht <;> exact ⟨w, hw, hh⟩
  assigned := by
    intro y q h
    have := ck_assigned h
    exact ⟨ck_bare (by omega) (by omega), by simp [hdE, hdD]⟩
  inlets := fun y q x j h => absurd h ck_no_inlet
  outlets := fun p k e h => absurd h ck_no_conn
  nested := ⟨fun _ => 0, fun y q x j h => absurd h ck_no_inlet⟩

/-- The second assignment to `q` is the one the netlist takes for the register. -/
theorem ck_last {x : Nat} {p : Int} {loc : TextLoc} (h : Leaves ckB1.stmt x p loc) {w : Wr} (hw : w ∈ allWrites ckB1.stmt)
    (hh : Hits false x p w) : loc = ln 3 := by
  have hp : 2 = x ∧ InRng ⟨0, 7⟩ p := by rcases ck_writes hw with rfl | rfl <;> exact hh.2
  obtain ⟨rfl, hp⟩ := hp
  have hn : nbaWrites true ckB1.stmt = [⟨2, ⟨0, 7⟩, ln 2, false⟩, ⟨2, ⟨0, 7⟩, ln 3, false⟩] := by decide
  rcases h with ⟨pre, v, post, h1, _, h3, h4⟩ | ⟨h, _⟩
  · rw [hn] at h1
    rcases pre with _ | ⟨_, _ | ⟨_, _⟩⟩ <;> simp at h1
    · obtain ⟨rfl, rfl⟩ := h1
      exact absurd (show Hits false 2 p ⟨2, ⟨0, 7⟩, ln 3, false⟩ from ⟨rfl, rfl, hp⟩) (h4 _ (List.mem_singleton.2 rfl))
    · obtain ⟨_, rfl, _⟩ := h1
      exact h3.symm
  · exact absurd (show Hits false 2 p ⟨2, ⟨0, 7⟩, ln 3, false⟩ from ⟨rfl, rfl, hp⟩) (h _ (by rw [hn]; simp))

theorem ck_timed (cuts : CutReg) : Timed hdE ckEvents cuts where
  sync := by
    intro b hb hc
    obtain rfl := ck_reg hb hc
    have key : ∀ r : Ref, (r = dsRef 0 ∨ r = dsRef 2 ∨ r = dsRef 3) → ReadFits (allWrites ckB1.stmt) r.sym r.bounds := by
      rintro r h
      apply fits_same
      intro w hw _
      have : w.bounds = ⟨0, 7⟩ := by rcases ck_writes hw with rfl | rfl <;> rfl
      rcases h with rfl | rfl | rfl <;> exact this
    refine .cond (.choose .assign .assign) (.choose (.assign ?_) (.assign ?_)) ?_
    · intro l r h
      cases h with
      | seg h1 h2 h3 => simp at h1; subst h1; simp at h2; subst h2; cases h3
    · intro l r h
      cases h with
      | seg h1 h2 h3 =>
        simp at h1; subst h1; simp at h2; subst h2
        cases h3 with
        | inside h _ => simp at h; exact key r (by rcases h with h | h <;> simp [h])
    · intro r hr _
      simp at hr
      exact key r (by simp [hr])
  count := by
    intro b hb hc who r Q hu p hp
    obtain rfl := ck_reg hb hc
    have : ∀ x ∈ usesOf ckB1.stmt, x.2.bounds = ⟨0, 7⟩ := by decide
    rw [this _ (use_of hu)] at hp
    exact (eight.1 hp).1
  range := by
    intro b hb hc w hw
    obtain rfl := ck_reg hb hc
    have hb' : ∀ w ∈ allWrites ckB1.stmt, w.bounds = ⟨0, 7⟩ := by decide
    rw [hb' w hw]
    refine ⟨by decide, fun v hv _ => hb' v hv, fun b' h' who r Q hu _ => ?_⟩
    have : ∀ b ∈ [ckB1, ifB2, ifB3], ∀ x ∈ usesOf b.stmt, x.2.bounds = ⟨0, 7⟩ := by
      intro b hb; simp at hb; rcases hb with rfl | rfl | rfl <;> decide
    exact this b' h' _ (use_of hu)
  alone := by
    intro b hb hc w hw
    obtain rfl := ck_reg hb hc
    have : w.sym = 2 := by rcases ck_writes hw with rfl | rfl <;> rfl
    rw [this]
    refine ⟨by simp [hdE, hdD], ck_declares (by decide), ⟨[], [ifB2, ifB3], rfl, ?_⟩, fun _ _ _ _ _ _ h => absurd h.1 ck_no_conn⟩
    intro b' hb' hc'
    exact absurd hc' (if_clocked (by simp at hb'; simp [hb']))
  outs := by
    intro b hb x j y q hk h
    rcases h with ⟨h, _⟩ | ⟨_, _, _, h⟩
    · exact absurd hk.1 h
    · exact absurd h ck_no_up
  last := by
    intro b hb hc x p loc hl w hw hh
    obtain rfl := ck_reg hb hc
    obtain rfl := ck_last hl hw hh
    rcases ck_writes hw with rfl | rfl
    · refine .inr ⟨inert_of ?_, ?_⟩
      · rw [ck_blocks]
        intro b hb; simp at hb; rcases hb with rfl | rfl | rfl <;> decide
      · intro b' hb' u hg
        have : ∀ b ∈ [ckB1, ifB2, ifB3], ∀ x ∈ guardsOf b.stmt, x.2 = .assignment (ln 2) → x.1 = .conditional (ln 1) := by
          intro b hb; simp at hb; rcases hb with rfl | rfl | rfl <;> decide
        obtain rfl : u = _ := this b' hb' _ (guards_of hg) rfl
        exact .tail .refl (.here (.right (.reads _) (.second (.assign (by simp [asgLocs])))))
    · exact .inl rfl

/-- What the lines compute. -/
def ckM : Meaning Bool where
  value := fun loc ρ _ p => decide (0 ≤ p ∧ p ≤ 7) && if loc.line = 3 then ρ 2 p ^^ ρ 0 p else
    if loc.line = 4 then ρ 2 p else if loc.line = 5 then ρ 3 p else false
  pick := fun _ _ ρ _ => ρ 3 0
  feed := fun _ _ _ => false

/-- The values when `a` is always `v` and `c` is 0: `q` is `v` at odd times. -/
def ckVals (v : Bool) (t : Nat) : Vals Bool := fun x p =>
  decide (0 ≤ p ∧ p ≤ 7) && if x = 0 then v else if x = 1 ∨ x = 2 then v && decide (t % 2 = 1) else false

theorem ck_faithful : Faithful ckM hdE ckEvents where
  blocks := by
    intro b hb hc
    rcases ck_comb hb hc with rfl | rfl
    · intro l hl
      simp [asgLocs] at hl; subst hl
      exact looks_lsp (g := ⟨[dsRef 1], [.lsp (dsRef 2)], ln 4⟩) (n := 2) (by simp) (by simp) (fun _ _ _ => by simp [ckM, ln])
    · intro l hl
      simp [asgLocs] at hl; subst hl
      exact looks_lsp (g := ⟨[dsRef 4], [.lsp (dsRef 3)], ln 5⟩) (n := 3) (by simp) (by simp) (fun _ _ _ => by simp [ckM, ln])
  inlets := fun x j ρ ρ' _ => rfl

theorem ck_reflects : Reflects ckM ckB1.stmt := by
  refine ⟨trivial, ⟨trivial, ⟨?_, ?_⟩, by simp⟩, ?_⟩
  · intro l hl
    simp [asgLocs] at hl; subst hl
    intro _ _ _; rfl
  · intro l hl
    simp [asgLocs] at hl; subst hl
    intro ρ ρ' h
    funext x p
    by_cases hp : 0 ≤ p ∧ p ≤ 7
    · have key : ∀ n, n = 0 ∨ n = 2 → ρ n p = ρ' n p := fun n hn =>
        h n p ⟨dsRef n, .seg (g := ⟨[dsRef 2], [.opaque [dsRef 2, dsRef 0]], ln 3⟩) (x := .opaque [dsRef 2, dsRef 0])
          (by simp) (by simp) (.inside (by rcases hn with rfl | rfl <;> simp) rfl), rfl, eight.2 hp⟩
      simp [ckM, ln, key 0 (.inl rfl), key 2 (.inr rfl)]
    · simp only [ckM, hp, decide_false, Bool.false_and]
  · intro k loc rs t' h1 h2
    simp at h1 h2
    obtain ⟨rfl, rfl⟩ := h1
    obtain ⟨rfl, rfl⟩ := h2
    intro ρ ρ' h
    funext n
    exact h 3 0 ⟨dsRef 3, ⟨by simp, rfl⟩, rfl, eight.2 (by decide)⟩

theorem ck_solves (v : Bool) (t : Nat) : Solves ckM hdE ckEvents (ckVals v t) where
  blocks := by
    intro b hb hc x p ⟨w, hw, hh⟩
    obtain ⟨_, h1, h2⟩ := hh
    rcases ck_comb hb hc with rfl | rfl <;> simp [ifB2, ifB3, Deferred.stmt, allWrites, asgWrites, dsRef] at hw <;> subst hw
    · have h3 : 1 = x ∧ 0 ≤ p ∧ p ≤ 7 := ⟨h1, eight.1 h2⟩
      obtain ⟨rfl, h3⟩ := h3
      simp [ifB2, Deferred.stmt, run, store, asgWrites, dsRef, ckM, ckVals, BitRange.lower, BitRange.upper, ln, h3]
    · have h3 : 4 = x ∧ 0 ≤ p ∧ p ≤ 7 := ⟨h1, eight.1 h2⟩
      obtain ⟨rfl, h3⟩ := h3
      simp [ifB3, Deferred.stmt, run, store, asgWrites, dsRef, ckM, ckVals, BitRange.lower, BitRange.upper, ln, h3]
  inlets := fun y q x j h => absurd h ck_no_inlet
  outlets := by
    rintro x j y q ⟨p, k, e, _, h, _⟩
    exact absurd h.1 ck_no_conn

theorem ck_kept {b : Deferred} {x j : Nat} (hb : b ∈ blocksOf ckEvents) (h : Kept b x j) : b = ckB1 ∧ x = 2 ∧ j ≤ 7 := by
  obtain ⟨hc, w, hw, _, h1, h2⟩ := h
  obtain rfl := ck_reg hb hc
  rcases ck_writes hw with rfl | rfl <;> exact ⟨rfl, h1.symm, by have := (eight.1 h2).2; omega⟩

theorem ck_unrolls (v : Bool) : Unrolls ckM hdE ckEvents (fun _ _ => true) (ckVals v) where
  stable := ck_solves v
  step := by
    intro t b hb x j hk
    obtain ⟨rfl, rfl, hj⟩ := ck_kept hb hk
    have h3 : (0 : Int) ≤ j ∧ (j : Int) ≤ 7 := by omega
    have : decide ((t + 1) % 2 = 1) = !decide (t % 2 = 1) := by
      by_cases h : t % 2 = 1
      · simp [h]; omega
      · simp [h]; omega
    cases v <;> simp [ckB1, Deferred.stmt, later, run, enter, store, asgWrites, dsRef, ckM, ckVals, BitRange.lower, BitRange.upper, ln, h3, this] <;> omega

theorem ck_init : ∀ b ∈ blocksOf ckEvents, ∀ x j, Kept b x j → ckVals false 0 x j = ckVals true 0 x j := by
  intro b hb x j hk
  obtain ⟨rfl, rfl, hj⟩ := ck_kept hb hk
  simp [ckVals]

/-- Output `y` differs at time 1, so there is a path. It goes through the register. -/
example : ∃ net', netlist hdE Tracker.slots ckTop = .ok net' ∧ ckNet = moveNet id net' ∧
    ∃ loc, Leaves ifB2.stmt 1 0 loc ∧ ∃ t' ≤ 1, ∃ s q z i who,
      Source hdE (eventsAll hdBoxed hdE.opts.propCuts ckTop) ckCol.cuts s q ∧
      ¬ Held hdE (eventsAll hdBoxed hdE.opts.propCuts ckTop) ckCol.cuts s q ∧ ckVals false t' s q ≠ ckVals true t' s q ∧
      Brings hdE (eventsAll hdBoxed hdE.opts.propCuts ckTop) s q z i ∧
      Sees (eventsAll hdBoxed hdE.opts.propCuts ckTop) z i who ∧
      ∃ m ∈ ckNet.g.nodes, ∃ n ∈ ckNet.g.nodes, net'.data m = who ∧ net'.data n = .assignment loc ∧
        Reach (Joined ckNet) m n :=
  influence_over_time_partial (M := ckM) ck_build ck_phase1 ck_net ck_marked ck_loops (by rw [ck_events]; exact ck_regular _)
    (by rw [ck_events]; exact ck_timed _) (by rw [ck_events]; exact ck_faithful)
    (by rw [ck_events]; intro b hb hc; rw [ck_reg hb hc]; exact ck_reflects) (fire := fun _ _ => true)
    (by rw [ck_events]; exact ck_unrolls false) (by rw [ck_events]; exact ck_unrolls true)
    (by rw [ck_events]; exact ck_init) (b := ifB2) (by rw [ck_events, ck_blocks]; simp)
    (.inr ⟨if_clocked (by simp), ⟨1, ⟨0, 7⟩, ln 4, true⟩, by decide, rfl, rfl, eight.2 (by decide)⟩) (by decide)

/-- What differs and comes from outside are bits of port `a`. -/
theorem ck_sources {s q t : Nat} {cuts : CutReg} (h : Source hdE ckEvents cuts s q) (hh : ¬ Held hdE ckEvents cuts s q)
    (hne : ckVals false t s q ≠ ckVals true t s q) : s = 0 ∧ q ≤ 7 := by
  have h0 : s < 3 ∧ q ≤ 7 := by
    have : ¬ ¬ (s < 3 ∧ q ≤ 7) := by
      intro hc
      apply hne
      unfold ckVals
      by_cases h1 : s < 3
      · rw [decide_eq_false (by omega : ¬ (0 ≤ (q : Int) ∧ (q : Int) ≤ 7))]
        rfl
      · rw [if_neg (by omega), if_neg (by omega), if_neg (by omega), if_neg (by omega)]
    omega
  have g1 : s ≠ 1 := by
    rintro rfl
    exact h.1 ⟨ifB2, by rw [ck_blocks]; simp, if_clocked (by simp), 1, q,
      ⟨⟨1, ⟨0, 7⟩, ln 4, true⟩, by decide, rfl, rfl, eight.2 (by omega)⟩, .inl ⟨if_clocked (by simp), rfl, rfl⟩⟩
  have g2 : s ≠ 2 := by
    rintro rfl
    exact hh ⟨ckB1, by rw [ck_blocks]; simp, 2, q,
      ⟨ck_clocked, ⟨2, ⟨0, 7⟩, ln 2, false⟩, by decide, rfl, rfl, eight.2 (by omega)⟩, .inl ⟨rfl, rfl⟩⟩
  omega

theorem ck_in {s q : Nat} {p : PortDecl} (h : LastSupply ckEvents s q p) (hs : s ≠ 3) : s = 0 ∧ p = hdIn 20 0 := by
  obtain ⟨pre, post, h1, h2, _⟩ := h
  have hm : Event.port p ∈ ckEvents := h1 ▸ by simp
  simp [ckEvents] at hm
  obtain ⟨a1, d, a2, a3, _⟩ := h2
  rcases hm with rfl | rfl | rfl | rfl <;> simp [hdIn, hdOut] at a1 a2 <;> subst a2
  · exact ⟨a1.symm, rfl⟩
  · omega
  · cases a3
  · cases a3

theorem ck_inputs : ∀ t s q, Source hdE ckEvents ckCol.cuts s q → ¬ Held hdE ckEvents ckCol.cuts s q →
    ckVals false t s q ≠ ckVals true t s q → Bare ckEvents s ∧ hdE.D.kind s ≠ .modportPort ∧ ∃ p, LastSupply ckEvents s q p := by
  intro t s q h hh hne
  obtain ⟨rfl, hq⟩ := ck_sources h hh hne
  refine ⟨ck_bare (by decide) (by decide), by simp [hdE, hdD], hdIn 20 0, [], _, rfl,
    ⟨rfl, ⟨0, 7, true⟩, by simp [hdIn], rfl, by simp, hq⟩, ?_⟩
  intro p hp hs
  simp at hp
  rcases hp with rfl | rfl | rfl <;> simp [Supplies, hdIn, hdOut] at hs

theorem ck_cuts : ckCol.cuts 4 = none := by decide +kernel

theorem ck_spans : Spans hdE ckCol.cuts (hdOut 23 4) 4 0 7 := by
  refine ⟨rfl, by decide, ⟨⟨0, 7, false⟩, by simp [hdOut], by decide, by decide⟩, fun _ l hl => ?_⟩
  rw [ck_cuts] at hl
  cases hl

/-- There is no path from port `a` to port `w`, so `w` is always the same. -/
example (t : Nat) : ckVals false t 4 0 = ckVals true t 4 0 :=
  no_path_same_forever_partial (M := ckM) ck_build ck_phase1 ck_net ck_marked ck_loops
    (by rw [ck_events]; exact ck_regular _) (by rw [ck_events]; exact ck_timed _)
    (by rw [ck_events]; exact ck_faithful)
    (by rw [ck_events]; intro b hb hc; rw [ck_reg hb hc]; exact ck_reflects) (fire := fun _ _ => true)
    (σ := ckVals false) (σ' := ckVals true) (by rw [ck_events]; exact ck_unrolls false) (by rw [ck_events]; exact ck_unrolls true)
    (by rw [ck_events]; exact ck_init) (by rw [ck_events]; exact ck_inputs) (b := ifB3) (x := 4) (j := 0)
    (by rw [ck_events, ck_blocks]; simp)
    (.inr ⟨if_clocked (by simp), ⟨4, ⟨0, 7⟩, ln 5, true⟩, by decide, rfl, rfl, eight.2 (by decide)⟩) (p := hdOut 23 4)
    (by rw [ck_events]; simp [ckEvents]) rfl (lo := 0) (hi := 7)
    ck_spans
    (by intro w hw _ _; simp [ifB3, Deferred.stmt, allWrites, asgWrites, dsRef] at hw; subst hw; decide)
    (by
      rw [ck_events]
      intro t s q n m p' h1 h2 h3 h4
      have hs : s ≠ 3 := by rintro rfl; exact h2 rfl
      obtain ⟨rfl, rfl⟩ := ck_in h1 hs
      obtain ⟨n1, x, b, hx, _, n2⟩ := h3
      obtain ⟨m1, y, b', hy, _, m2⟩ := h4
      cases hx; cases hy
      exact ⟨by decide, (by decide +kernel : ∀ n ∈ ckNet.g.nodes, ∀ m ∈ ckNet.g.nodes,
        portName (ckNet.data n) = some ['a'] → portName (ckNet.data m) = some ['e'] → findPath ckNet n m = some [])
          n n1 m m1 (by rw [n2]; rfl) (by rw [m2]; rfl)⟩) t

/-! ### An influence the netlist lacks -/

/-- ```
always_ff @(posedge clk)
  if (c)                  // line 1
    b <= a;               // line 2
  else
    b <= 0;               // line 3
``` -/
def firstB : Deferred := .procedural .alwaysFF (.timed (.signalEvent ⟨.posEdge, some 9⟩))
  (.seq (.branch false (ln 1)) (.seq (.reads [dsRef 3])
    (.choose true (.assign (ln 2) false (.aligned [⟨[dsRef 1], [.lsp (dsRef 0)], ln 2⟩]))
      (.assign (ln 3) false (.aligned [⟨[dsRef 1], [.constant [] 8 (ln 3)], ln 3⟩])))))

theorem first_clocked : Clocked firstB :=
  ⟨⟨_, List.mem_singleton.2 rfl, by decide⟩, by simp [firstB, blockEvents, eventsOf]⟩

theorem first_build : Buildable hdE hdBoxed Tracker.slots (loTop firstB) where
  design := lo_elab firstB
  plain := by
    intro c hc
    rw [lo_phase1] at hc
    exact Except.ok.inj hc ▸
      plain_of_two (lo := 0) (mid := 3) (hi := 7) (by decide) (by decide) (by decide +kernel) (by decide) (by decide)
  live := by
    rw [lo_events]
    intro b' hb'
    rw [lo_block hb']
    decide
  events := by
    rw [lo_events]
    intro b' hb'
    rw [lo_block hb']
    simp [firstB, PlainEvents, SignalEventsOnly, eventsOf, PlainClocks]
  visits := fun _ => List.Perm.refl _
  ports := by
    rw [lo_events]
    intro p hp' b' hb' w hw
    have : ∀ w ∈ allWrites firstB.stmt, w.sym < 20 := by decide
    have := this w (lo_block hb' ▸ hw)
    simp [loEvents, hdIn, hdOut] at hp'
    rcases hp' with rfl | rfl | rfl | rfl <;> simp only <;> omega

/-- Line 2 copies `a`. -/
def firstSrc : Nat → Option Nat
  | 2 => some 0
  | _ => none

/-- The values when `a` is always `v` and `c` is 1: from time 1 on, `b` is `v`. -/
def firstV (v : Bool) (t : Nat) : Nat → Bool
  | 0 => v
  | 1 => v && decide (0 < t)
  | 3 => true
  | _ => false

theorem first_reflects : Reflects (loM firstSrc) firstB.stmt := by
  refine ⟨trivial, ⟨trivial, ⟨?_, ?_⟩, by simp⟩, ?_⟩
  · intro l hl
    simp [asgLocs] at hl; subst hl
    exact looks_line (g := ⟨[dsRef 1], [.lsp (dsRef 0)], ln 2⟩) (n := 0) (by simp) (by simp) rfl
  · intro l hl
    simp [asgLocs] at hl; subst hl
    intro _ _ _; rfl
  · intro k loc rs t' h1 h2
    simp at h1 h2
    obtain ⟨rfl, rfl⟩ := h1
    obtain ⟨rfl, rfl⟩ := h2
    intro ρ ρ' h
    funext n
    exact h 3 0 ⟨dsRef 3, ⟨by simp, rfl⟩, rfl, eight.2 (by decide)⟩

theorem first_kept {b : Deferred} {x j : Nat} (hb : b ∈ blocksOf (loEvents firstB)) (h : Kept b x j) :
    b = firstB ∧ x = 1 ∧ j ≤ 7 := by
  obtain rfl := lo_block hb
  obtain ⟨_, w, hw, _, h1, h2⟩ := h
  simp [firstB, Deferred.stmt, allWrites, asgWrites, dsRef] at hw
  rcases hw with rfl | rfl <;> exact ⟨rfl, h1.symm, by have := (eight.1 h2).2; omega⟩

theorem first_unrolls (v : Bool) :
    Unrolls (loM firstSrc) hdE (loEvents firstB) (fun _ _ => true) (fun t => loVals (firstV v t)) where
  stable t := by
    refine ⟨?_, ?_, ?_⟩
    · intro b' hb' hc
      rw [lo_block hb'] at hc
      exact absurd first_clocked hc
    · rintro y q x j ⟨p, k, _, h, _⟩
      exact absurd h.1 lo_no_conn
    · rintro x j y q ⟨p, k, e, _, h, _⟩
      exact absurd h.1 lo_no_conn
  step := by
    intro t b hb x j hk
    obtain ⟨rfl, rfl, hj⟩ := first_kept hb hk
    have h3 : (0 : Int) ≤ j ∧ (j : Int) ≤ 7 := by omega
    cases v <;> simp [firstB, Deferred.stmt, later, run, enter, store, asgWrites, dsRef, loM, loVals, firstSrc, firstV,
      BitRange.lower, BitRange.upper, ln, h3] <;> omega

theorem first_sources {s q t : Nat} {cuts : CutReg} (hh : ¬ Held hdE (loEvents firstB) cuts s q)
    (hne : loVals (firstV false t) s q ≠ loVals (firstV true t) s q) : LastSupply (loEvents firstB) s q (hdIn 20 0) := by
  have hq : q ≤ 7 := by
    refine Classical.byContradiction fun hc => hne ?_
    unfold loVals
    rw [decide_eq_false (by omega : ¬ (0 ≤ (q : Int) ∧ (q : Int) ≤ 7))]
    rfl
  match s, hh, hne with
  | 0, _, _ =>
    refine ⟨[], _, rfl, ⟨rfl, ⟨0, 7, true⟩, by simp [hdIn], rfl, by simp, hq⟩, ?_⟩
    intro p hp hs
    simp at hp
    rcases hp with rfl | rfl | rfl <;> simp [Supplies, hdIn, hdOut] at hs
  | 1, hh, _ =>
    exact absurd ⟨firstB, by simp [loEvents, blocksOf], 1, q,
      ⟨first_clocked, ⟨1, ⟨0, 7⟩, ln 2, false⟩, by decide, rfl, rfl, eight.2 (by omega)⟩, .inl ⟨rfl, rfl⟩⟩ hh
  | 2, _, h => exact absurd rfl h
  | 3, _, h => exact absurd rfl h
  | n + 4, _, h => exact absurd rfl h

/-- C81 fails for a register loaded in both alternatives of a conditional, because only the last of the
two assignments is recorded: the two observations of the design differ, among the bits that come from
outside, in bits of `a` only; at time 1 they differ in a bit of output `b`; and no query for a path from
`a` to `b` finds one. -/
theorem influence_lost_first :
    Buildable hdE hdBoxed Tracker.slots (loTop firstB) ∧
    Distinct (eventsAll hdBoxed hdE.opts.propCuts (loTop firstB)) ∧
    ∃ c net, phase1 hdE (loTop firstB) = .ok c ∧ netlist hdE Tracker.slots (loTop firstB) = .ok net ∧ combLoops net = [] ∧
    Regular hdE (eventsAll hdBoxed hdE.opts.propCuts (loTop firstB)) c.cuts ∧
    ∃ (M : Meaning Bool) (fire : Nat → Deferred → Bool) (σ σ' : Nat → Vals Bool),
      Faithful M hdE (eventsAll hdBoxed hdE.opts.propCuts (loTop firstB)) ∧
      (∀ b ∈ blocksOf (eventsAll hdBoxed hdE.opts.propCuts (loTop firstB)), Clocked b → Reflects M b.stmt) ∧
      Unrolls M hdE (eventsAll hdBoxed hdE.opts.propCuts (loTop firstB)) fire σ ∧
      Unrolls M hdE (eventsAll hdBoxed hdE.opts.propCuts (loTop firstB)) fire σ' ∧
      (∀ b ∈ blocksOf (eventsAll hdBoxed hdE.opts.propCuts (loTop firstB)), ∀ x j, Kept b x j → σ 0 x j = σ' 0 x j) ∧
      (∀ t s q, Source hdE (eventsAll hdBoxed hdE.opts.propCuts (loTop firstB)) c.cuts s q →
        ¬ Held hdE (eventsAll hdBoxed hdE.opts.propCuts (loTop firstB)) c.cuts s q → σ t s q ≠ σ' t s q →
        LastSupply (eventsAll hdBoxed hdE.opts.propCuts (loTop firstB)) s q (hdIn 20 0)) ∧
      σ 1 1 0 ≠ σ' 1 1 0 ∧
      ∀ q n m, PortNode hdE.D net (hdIn 20 0) q n → PortNode hdE.D net (hdOut 21 1) 0 m → findPath net n m = some [] := by
  refine ⟨first_build, ?_, loCol firstB, loNet firstB, lo_phase1 _, lo_net first_build, by decide +kernel, ?_⟩
  · rw [lo_events]
    exact distinct_of_nodup (by decide +kernel)
  rw [lo_events]
  have hcl : ∀ b ∈ blocksOf (loEvents firstB), ¬ ¬ Clocked b := fun b hb => by
    rw [lo_block hb]; exact fun h => h first_clocked
  have hni : ∀ {y q x j}, ¬ Inlet hdE (loEvents firstB) y q x j := by
    rintro _ _ _ _ ⟨p, k, _, h, _⟩
    exact lo_no_conn h.1
  refine ⟨⟨fun b hb h => absurd h (hcl b hb), fun b hb h => absurd h (hcl b hb), fun b hb h => absurd h (hcl b hb), ?_,
    fun _ _ _ _ h => absurd h hni, fun _ _ _ h => absurd h lo_no_conn, fun _ => 0, fun _ _ _ _ h => absurd h hni⟩,
    loM firstSrc, fun _ _ => true, fun t => loVals (firstV false t), fun t => loVals (firstV true t),
    ⟨fun b hb h => absurd h (hcl b hb), fun _ _ _ _ _ => rfl⟩, ?_, first_unrolls false, first_unrolls true, ?_,
    fun t s q _ h => first_sources h, by decide, ?_⟩
  · rintro y q ⟨b, hb, h, _⟩
    exact absurd h (hcl b hb)
  · intro b hb _
    rw [lo_block hb]
    exact first_reflects
  · intro b hb x j hk
    obtain ⟨rfl, rfl, _⟩ := first_kept hb hk
    rfl
  · intro q n m h3 h4
    obtain ⟨n1, x, b, hx, _, n2⟩ := h3
    obtain ⟨m1, y, b', hy, _, m2⟩ := h4
    cases hx; cases hy
    exact (by decide +kernel : ∀ n ∈ (loNet firstB).g.nodes, ∀ m ∈ (loNet firstB).g.nodes,
      portName ((loNet firstB).data n) = some ['a'] → portName ((loNet firstB).data m) = some ['b'] →
        findPath (loNet firstB) n m = some []) n n1 m m1 (by rw [n2]; rfl) (by rw [m2]; rfl)

end Verif.Props

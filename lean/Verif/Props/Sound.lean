import Verif.Proofs.SoundTravel
import Verif.Props.Traverse

/-! C65: every edge of the netlist is justified by the design, signal by signal. C66: the same bit by bit. -/
namespace Verif.Props
open Verif.Model Verif.Spec Verif.Proofs

theorem signal_grain (E : TravEnv) (es : List Event) : GOk E es bySignal coarse where
  sub _ _ _ := trivial
  adm _ h := h ⟨fun _ _ _ h => h, fun _ _ _ _ _ _ h => h, fun _ _ _ _ _ h => h⟩
  fit _ _ _ _ := trivial
  ends b _ s _ d _ h := coarse.mono (TrkLe.refl _) (fun y p o ⟨n, h1, h2, w, h3, h4, _, h5⟩ =>
    ⟨n, h1, h2, w.loc, h5, w, h3, h4, rfl⟩) h

theorem bit_grain {E : TravEnv} {es : List Event} {W : List Wr} (hW : Plain W)
    (hw : ∀ b ∈ blocksOf es, ∀ w ∈ allWrites b.stmt, w ∈ W) (hl : ∀ b ∈ blocksOf es, live b.stmt = true) :
    GOk E es (byBit E) (fine hW) where
  sub _ _ h := h
  adm _ _ := trivial
  fit b hb w h := fits_write (hw b hb w h)
  ends b hb s hs d hd h := by
    obtain ⟨d', h1, _, _, _, h2, _⟩ := dfa_ok hs E.D (plain_sub (hw b hb) hW) (hl b hb)
    rw [hd] at h1; cases h1
    refine ⟨h.1, fun y p o ho => ?_⟩
    obtain ⟨n, h3, rfl, w, h4, h5, _, h6⟩ := h.2 y p o ho
    exact ⟨n, h3, rfl, w.loc, h6, (h2 y p w.loc).1 ⟨_, ho, n, h3, rfl, h6⟩⟩

/-- C65. Every edge of the netlist of an elaborated design is justified by what the design contains,
signal by signal. -/
theorem edges_justified {E : TravEnv} {boxed : Str → Str → Bool} {ord : Tracker → List (Nat × Nat)}
    {top : List Member} (h : Elaborated E boxed top) (hv : Visits ord) {net : NetGraph}
    (hn : netlist E ord top = .ok net) :
    Reachable net ∧ Sound E (eventsAll boxed E.opts.propCuts top) bySignal net :=
  netlist_sound h.boxes h.ok hv (signal_grain _ _) (fun _ _ _ _ _ h _ => h) (fun _ _ _ _ => trivial) hn

/-- C66. If the ranges of all recordings and writes are aligned and some path leads through each block,
every edge is justified bit by bit. Missing: other designs; the bits of an edge inside a block, of
which only one is known to be written by its source (see `inner_edge_carries_whole_read`); and
connections that are not resolved bit by bit. -/
theorem edges_justified_bits_partial {E : TravEnv} {boxed : Str → Str → Bool} {ord : Tracker → List (Nat × Nat)}
    {top : List Member} (h : Elaborated E boxed top)
    (hp : ∀ c, phase1 E top = .ok c → Plain (designWrites c.hist c.blocks))
    (hl : ∀ b ∈ blocksOf (eventsAll boxed E.opts.propCuts top), live b.stmt = true) (hv : Visits ord)
    {net : NetGraph} (hn : netlist E ord top = .ok net) :
    Reachable net ∧ Sound E (eventsAll boxed E.opts.propCuts top) (byBit E) net := by
  obtain ⟨c, h1, _, h3⟩ := walked h
  have hb : c.blocks = blocksOf (eventsAll boxed E.opts.propCuts top) := by rw [h3.blocks]; rfl
  refine netlist_sound h.boxes h.ok hv (bit_grain (hp c h1) ?_ hl) (fun _ _ _ _ _ h k => ⟨h, k⟩) ?_ hn
  · intro b hm w hw
    exact List.mem_append_right _ (List.mem_flatMap.2 ⟨b, by rw [hb]; exact hm, hw⟩)
  · intro c' hc x hx
    rw [h1] at hc; cases hc
    exact fits_write (W := designWrites c.hist c.blocks) (w := ⟨x.1, x.2.bounds, {}, true⟩)
      (List.mem_append_left _ (List.mem_map.2 ⟨x, hx, rfl⟩))

/-! ### What follows for single edges and for paths -/

theorem stands_not_assignment {E : TravEnv} {es : List Event} {G : Grain} {y : Nat} {loc : TextLoc} :
    ¬ Stands E es G y (.assignment loc) := by
  intro h
  generalize hd : NodeData.assignment loc = d at h
  cases h with
  | @made ev _ _ _ hm =>
    subst hd
    cases ev with
    | port p => obtain ⟨_, _, _, _, _, h⟩ := hm; cases h
    | «variable» s ds => obtain ⟨_, _, h⟩ := hm; cases h
    | connect k => obtain ⟨_, _, _, h⟩ := hm; cases h
    | cuts k => exact hm
    | block b => exact hm
    | box p => exact hm
  | register _ h => subst hd; cases h

/-- An edge with a signal into an assignment is for a signal that this assignment reads. -/
theorem read_of_edge {E : TravEnv} {es : List Event} {G : Grain} {path : Str} {i : Int} {u : NodeData}
    {loc : TextLoc} (h : Justified E es G path i u (.assignment loc)) :
    ∃ b ∈ blocksOf es, ∃ r Q, ReadsIn b.stmt (.assignment loc) r Q ∧ (E.D.ref r.sym).path = path ∧
      InRng r.bounds i := by
  cases h with
  | inside h1 h2 _ _ _ _ _ h3 h4 => exact ⟨_, h1, _, _, h2, h4, h3⟩
  | between h1 _ h3 =>
    generalize hd : NodeData.assignment loc = d at h3
    cases h3 with
    | read k1 k2 k3 k4 => subst hd; exact ⟨_, k1, _, _, k2, by rw [k3]; exact h1, k4⟩
    | input _ _ _ k => subst hd; exact absurd k.1 stands_not_assignment
    | clock _ k => subst hd; cases k
  | outward _ _ _ h => exact absurd h.1 stands_not_assignment
  | store _ _ _ h => cases h
  | «variable» _ _ _ _ h => exact absurd h.1 stands_not_assignment
  | modport _ _ _ _ _ h => exact absurd h stands_not_assignment

theorem single_split {α : Type} {x g : α} {as bs : List α} (h : [x] = as ++ g :: bs) :
    as = [] ∧ g = x ∧ bs = [] := by
  cases as with
  | nil => cases h; exact ⟨rfl, rfl, rfl⟩
  | cons a as => have := congrArg List.length h; simp at this

theorem touches_writes {M : NodeData → Prop} {P Q : Wr → Prop} {st : Stmt} {d : NodeData} {r : Ref}
    (h : Touches M P st d r Q) : ∀ w, Q w → P w ∨ w ∈ allWrites st := by
  induction h with
  | reads => exact fun w h => .inl h
  | note => exact fun w h => h
  | seg he =>
    subst he
    refine fun w h => h.imp_right fun h => ?_
    simp only [allWrites, asgWrites, List.flatMap_append, List.flatMap_cons, List.flatMap_nil,
      List.append_nil, List.mem_append] at h ⊢
    exact h.imp_right .inl
  | left _ ih => exact fun w h => (ih w h).imp_right fun h => List.mem_append_left _ h
  | right _ ih =>
    intro w h
    rcases ih w h with (h | h) | h
    · exact .inl h
    · exact .inr (List.mem_append_left _ h)
    · exact .inr (List.mem_append_right _ h)
  | first _ ih => exact fun w h => (ih w h).imp_right fun h => List.mem_append_left _ h
  | second _ ih => exact fun w h => (ih w h).imp_right fun h => List.mem_append_right _ h

/-- An edge with a signal out of an assignment is for a signal that this assignment writes. -/
theorem write_of_edge {E : TravEnv} {es : List Event} {path : Str} {i : Int} {v : NodeData}
    {loc : TextLoc} (h : Justified E es bySignal path i (.assignment loc) v) :
    ∃ b ∈ blocksOf es, ∃ w ∈ allWrites b.stmt, w.loc = loc ∧ (E.D.ref w.sym).path = path := by
  cases h with
  | inside h1 h2 h3 _ h4 _ _ _ h5 =>
    rcases touches_writes h2 _ h3 with h | h
    · exact h.elim
    · exact ⟨_, h1, _, h, rfl, by rw [← h4]; exact h5⟩
  | between h1 h2 _ =>
    generalize hd : NodeData.assignment loc = d at h2
    cases h2 with
    | assign k1 _ k2 =>
      cases hd
      obtain ⟨w, k3, rfl, k4⟩ := k2
      exact ⟨_, k1, w, k3, k4, h1⟩
    | node k => subst hd; exact absurd k.1 stands_not_assignment
    | input => cases hd
    | output _ _ _ k => subst hd; exact absurd k.1 stands_not_assignment
    | modport _ _ k => subst hd; exact absurd k stands_not_assignment
  | outward h1 h2 _ _ =>
    generalize hd : NodeData.assignment loc = d at h2
    cases h2 with
    | assign k1 _ k2 =>
      cases hd
      obtain ⟨w, k3, rfl, k4⟩ := k2
      exact ⟨_, k1, w, k3, k4, h1⟩
    | register _ k => subst hd; cases k
    | output _ _ _ k => subst hd; exact absurd k.1 stands_not_assignment
  | store h1 h2 h3 =>
    obtain ⟨w, k3, rfl, k4⟩ := h3
    exact ⟨_, h1, w, k3, k4, h2⟩
  | «variable» h1 h2 _ h3 =>
    obtain ⟨w, k3, rfl, k4⟩ := h3
    exact ⟨_, h1, w, k3, k4, h2⟩
  | modport h1 h2 _ h3 =>
    obtain ⟨w, k3, rfl, k4⟩ := h3
    exact ⟨_, h1, w, k3, k4, h2⟩

/-- C65, for an edge between two assignments: its signal is written by the first and read by the
second. -/
theorem edge_between_assignments {E : TravEnv} {boxed : Str → Str → Bool} {ord : Tracker → List (Nat × Nat)}
    {top : List Member} (h : Elaborated E boxed top) (hv : Visits ord) {net : NetGraph}
    (hn : netlist E ord top = .ok net) {s t : Nat} {l m : TextLoc} {path : Str} {i : Int}
    (hs : s ∈ net.g.nodes) (h1 : net.data s = .assignment l) (h2 : net.data t = .assignment m)
    (hc : Carried net s t path i) :
    (∃ b ∈ blocksOf (eventsAll boxed E.opts.propCuts top), ∃ w ∈ allWrites b.stmt, w.loc = l ∧
      (E.D.ref w.sym).path = path) ∧
    ∃ b ∈ blocksOf (eventsAll boxed E.opts.propCuts top), ∃ r Q, ReadsIn b.stmt (.assignment m) r Q ∧
      (E.D.ref r.sym).path = path ∧ InRng r.bounds i := by
  obtain ⟨e, he, rfl, ⟨r, hr, rfl⟩, hi⟩ := hc
  have := (edges_justified h hv hn).2 s hs e he |>.2.2
  rw [hr] at this
  have := this i hi
  rw [h1, h2] at this
  exact ⟨write_of_edge this, read_of_edge this⟩

theorem joined_depends {E : TravEnv} {es : List Event} {G : Grain} {net : NetGraph} (h : Sound E es G net)
    {s t : Nat} (hs : s ∈ net.g.nodes) (hj : Joined net s t) : Depends E es G (net.data s) (net.data t) := by
  obtain ⟨e, he, rfl⟩ := hj
  have := (h s hs e he).2.2
  split at this
  · exact .inl this
  · exact .inr ⟨_, _, this _ (inRng_self _)⟩

theorem reach_depends {E : TravEnv} {es : List Event} {G : Grain} {net : NetGraph} (h : Reachable net ∧ Sound E es G net)
    {s t : Nat} (hp : Reach (Joined net) s t) : Reach (Depends E es G) (net.data s) (net.data t) := by
  induction hp with
  | refl => exact .refl
  | tail _ hj ih => exact ih.tail (joined_depends h.2 (joined_nodes h.1 hj).1 hj)

/-- C65, for paths: every path of the netlist is a chain of dependences of the design. -/
theorem paths_justified {E : TravEnv} {boxed : Str → Str → Bool} {ord : Tracker → List (Nat × Nat)}
    {top : List Member} (h : Elaborated E boxed top) (hv : Visits ord) {net : NetGraph}
    (hn : netlist E ord top = .ok net) {s t : Nat} (hp : Reach (Joined net) s t) :
    Reach (Depends E (eventsAll boxed E.opts.propCuts top) bySignal) (net.data s) (net.data t) :=
  reach_depends (edges_justified h hv hn) hp

/-- C66, for paths. -/
theorem paths_justified_bits_partial {E : TravEnv} {boxed : Str → Str → Bool} {ord : Tracker → List (Nat × Nat)}
    {top : List Member} (h : Elaborated E boxed top)
    (hp : ∀ c, phase1 E top = .ok c → Plain (designWrites c.hist c.blocks))
    (hl : ∀ b ∈ blocksOf (eventsAll boxed E.opts.propCuts top), live b.stmt = true) (hv : Visits ord)
    {net : NetGraph} (hn : netlist E ord top = .ok net) {s t : Nat} (hr : Reach (Joined net) s t) :
    Reach (Depends E (eventsAll boxed E.opts.propCuts top) (byBit E)) (net.data s) (net.data t) :=
  reach_depends (edges_justified_bits_partial h hp hl hv hn) hr

/-! ### A concrete design -/

/-- The hypotheses of the theorems above are met by the design of Props/Traverse, for every order in
which the tables are visited. -/
example : Elaborated hdE hdBoxed hdTop ∧ (∀ c, phase1 hdE hdTop = .ok c → Plain (designWrites c.hist c.blocks)) ∧
    (∀ b ∈ blocksOf (eventsAll hdBoxed hdE.opts.propCuts hdTop), live b.stmt = true) ∧ Visits Tracker.slots ∧
    netlist hdE Tracker.slots hdTop = .ok hdNet :=
  ⟨hd_elab, hd_build.plain, hd_build.live, hd_build.visits, hd_net⟩


/-- Edges with their bits. -/
def edgeBits (net : NetGraph) : List (Nat × Nat × BitRange) :=
  net.g.nodes.flatMap fun n => (net.g.obj n).outE.map fun e => (n, e.tgt, (net.attr e.id).bounds)

/-- All edges of its graph: from `a` (node 0) over line 3 (9), the low ports of `m` and `l` (2, 5),
line 2 (10), the output ports (7, 4) and line 1 (8) to `z` (1). The upper half of `mi` (3, 6) is not
reached from anywhere, nothing drives it. -/
example : edgeBits hdNet = [(0, 9, ⟨0, 3⟩), (2, 5, ⟨0, 3⟩), (3, 6, ⟨4, 7⟩), (4, 8, ⟨0, 7⟩), (5, 10, ⟨0, 3⟩),
    (6, 10, ⟨4, 7⟩), (7, 4, ⟨0, 7⟩), (8, 1, ⟨0, 7⟩), (9, 2, ⟨0, 3⟩), (10, 7, ⟨0, 7⟩)] := by
  decide +kernel

theorem hd_reads {b : Deferred} (hb : b ∈ blocksOf (eventsAll hdBoxed hdE.opts.propCuts hdTop)) {r : Ref} {Q : Wr → Prop}
    (h : ReadsIn b.stmt (.assignment (ln 3)) r Q) : r = ⟨0, ⟨0, 3⟩, 0, false⟩ := by
  have : blocksOf (eventsAll hdBoxed hdE.opts.propCuts hdTop) = [hdZ, hdV, hdO] := by
    show blocksOf (eventsAll hdBoxed true hdTop) = _
    rw [hd_events, hd_blocks]
  rw [this] at hb
  simp at hb
  rcases hb with rfl | rfl | rfl
  · generalize hd : NodeData.assignment (ln 3) = d at h
    cases h with
    | seg h1 h2 h3 =>
      obtain ⟨rfl, rfl, rfl⟩ := single_split h1
      cases hd
  · generalize hd : NodeData.assignment (ln 3) = d at h
    cases h with
    | seg h1 h2 h3 =>
      obtain ⟨rfl, rfl, rfl⟩ := single_split h1
      cases List.mem_singleton.1 h2
      cases h3
      rfl
  · generalize hd : NodeData.assignment (ln 3) = d at h
    cases h with
    | seg h1 h2 h3 =>
      obtain ⟨rfl, rfl, rfl⟩ := single_split h1
      cases hd

/-- In every netlist of that design, whatever the order of the tables, edges into line 3 carry bits 0
to 3 of `a` and nothing else. -/
example {ord : Tracker → List (Nat × Nat)} (hv : Visits ord) {net : NetGraph} (hn : netlist hdE ord hdTop = .ok net)
    {s t : Nat} (hs : s ∈ net.g.nodes) (ht : net.data t = .assignment (ln 3)) {path : Str} {i : Int}
    (hc : Carried net s t path i) : path = ['a'] ∧ 0 ≤ i ∧ i ≤ 3 := by
  obtain ⟨e, he, rfl, ⟨r, hr, rfl⟩, hi⟩ := hc
  have := (edges_justified hd_elab hv hn).2 s hs e he |>.2.2
  rw [hr] at this
  have := this i hi
  rw [ht] at this
  obtain ⟨b, hb, q, Q, h1, h2, h3⟩ := read_of_edge this
  obtain rfl := hd_reads hb h1
  simp [InRng] at h3
  exact ⟨h2 ▸ rfl, by omega, by omega⟩

/-! ### What the specification has to allow -/

/-- One `always_comb` block beside the input `a` (signal 0, node 0). -/
def oneBlock (st : Stmt) : List Member :=
  [.inst false ['t'] ['t'] [.port (hdIn 20 0), .block (.procedural .alwaysComb .other st)] []]

def oneNet (st : Stmt) : NetGraph := (netlist hdE Tracker.slots (oneBlock st)).toOption.getD {}

/-- `c = b; $display(a);`: the read of `a` is attributed to the assignment before it, which does not
read `a`. -/
theorem bare_read_feeds_assignment :
    let net := oneNet (.seq (.assign (ln 1) true (.aligned [⟨[dsRef 2], [.lsp (dsRef 1)], ln 1⟩])) (.reads [dsRef 0]))
    net.data 1 = .assignment (ln 1) ∧ edgeBits net = [(0, 1, ⟨0, 7⟩)] := by
  decide +kernel

/-- `c[3:0] = a[3:0]; b = c;`: the edge from the first to the second assignment carries all of `c`,
although the first assigns only bits 0 to 3. -/
theorem inner_edge_carries_whole_read :
    let net := oneNet (.seq
      (.assign (ln 1) true (.aligned [⟨[⟨2, ⟨0, 3⟩, 0, false⟩], [.lsp ⟨0, ⟨0, 3⟩, 0, false⟩], ln 1⟩]))
      (.assign (ln 2) true (.aligned [⟨[dsRef 1], [.lsp (dsRef 2)], ln 2⟩])))
    net.data 1 = .assignment (ln 1) ∧ net.data 2 = .assignment (ln 2) ∧
      edgeBits net = [(0, 1, ⟨0, 3⟩), (1, 2, ⟨0, 7⟩)] := by
  decide +kernel

end Verif.Props

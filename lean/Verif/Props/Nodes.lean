import Verif.Proofs.Nodes
import Verif.Props.Sound

/-! C68: the nodes of the netlist are those of the design. -/
namespace Verif.Props
open Verif.Model Verif.Spec Verif.Proofs

/-- The nodes of the netlist, in the order in which they were made, for either notion of a register. -/
theorem nodes_of {E : TravEnv} {boxed : Str → Str → Bool} {ord : Tracker → List (Nat × Nat)}
    {top : List Member} {G : Grain} {K : Disc} (h : Elaborated E boxed top) (hv : Visits ord)
    (hG : GOk E (eventsAll boxed E.opts.propCuts top) G K) (hB : Binds E G)
    (hf : ∀ c, phase1 E top = .ok c → ∀ x ∈ c.hist, K.fit x.1 x.2.bounds) {net : NetGraph}
    (hn : netlist E ord top = .ok net) :
    ∃ P K, datas net = P ++ K ∧ (∀ d ∈ P, ∃ ev ∈ eventsAll boxed E.opts.propCuts top, Makes E.D ev d) ∧
      K.filter (!NodeData.derived ·) = textNodes (eventsAll boxed E.opts.propCuts top) ∧
      (∀ d ∈ K, NodeData.derived d = true → d = .merge ∨
        ∃ b ∈ blocksOf (eventsAll boxed E.opts.propCuts top), ∃ y, RegOf E G b y d) ∧
      (K.filter (·.kind == .merge)).length ≤
        2 * ((blocksOf (eventsAll boxed E.opts.propCuts top)).map fun b => choices b.stmt).sum := by
  obtain ⟨c, h1, h2, h3⟩ := walked h
  unfold netlist at hn
  rw [h1] at hn
  dsimp only at hn
  split at hn
  · cases hn
  rename_i s e2
  have hc := steps_sound hG.sub hB _ (sc_start E _ G) (fun _ h => h) h.ok h2.run
  have hb : c.blocks = blocksOf (eventsAll boxed E.opts.propCuts top) := by rw [h3.blocks]; rfl
  have hs := start_bld hG hc (hf c h1) e2
  unfold Bld.build at hn
  split at hn
  · cases hn
  rename_i s1 e3
  obtain ⟨r, K, k1, k2, k3, k4⟩ := builds_blocks hG hv _ (by rw [hb]; exact fun _ h => h) hs e3
  have a := adds_resolve r hn
  refine ⟨datas s.net, K, by rw [a.datas, k1, List.append_nil], fun d hd => ?_, by rw [k2, hb]; rfl, ?_, ?_⟩
  · obtain ⟨n, hn, rfl⟩ := List.mem_map.1 hd
    have : s.net = c.b.net := by
      unfold Col.start at e2
      split at e2
      · cases e2
      · cases e2; rfl
    rw [this] at hn ⊢
    exact (h3.grew.made n hn).resolve_left (by simp)
  · rw [hb] at k3; exact k3
  · rw [hb] at k4; exact k4

/-- C68. The nodes of the netlist are, in the order in which they were made, those for the ports,
interface variables and constant connections of the design, and then those of the text of the blocks:
exactly one for each assignment (for each of its segments), conditional, case and constant, in the
order of the text. Between the latter are registers of the blocks and at most two merges for each
choice between two alternatives. -/
theorem nodes_exact {E : TravEnv} {boxed : Str → Str → Bool} {ord : Tracker → List (Nat × Nat)}
    {top : List Member} (h : Elaborated E boxed top) (hv : Visits ord) {net : NetGraph}
    (hn : netlist E ord top = .ok net) :
    ∃ P K, datas net = P ++ K ∧ (∀ d ∈ P, ∃ ev ∈ eventsAll boxed E.opts.propCuts top, Makes E.D ev d) ∧
      K.filter (!NodeData.derived ·) = textNodes (eventsAll boxed E.opts.propCuts top) ∧
      (∀ d ∈ K, NodeData.derived d = true → d = .merge ∨
        ∃ b ∈ blocksOf (eventsAll boxed E.opts.propCuts top), ∃ y, RegOf E bySignal b y d) ∧
      (K.filter (·.kind == .merge)).length ≤
        2 * ((blocksOf (eventsAll boxed E.opts.propCuts top)).map fun b => choices b.stmt).sum :=
  nodes_of h hv (signal_grain _ _) (fun _ _ _ _ _ h _ => h) (fun _ _ _ _ => trivial) hn

/-- C68. If the ranges of all recordings and writes are aligned and some path leads through each block,
a register of a block has only bits that some assignment is the last to write on some path through
the block. Missing: other designs. -/
theorem nodes_exact_bits_partial {E : TravEnv} {boxed : Str → Str → Bool} {ord : Tracker → List (Nat × Nat)}
    {top : List Member} (h : Elaborated E boxed top)
    (hp : ∀ c, phase1 E top = .ok c → Plain (designWrites c.hist c.blocks))
    (hl : ∀ b ∈ blocksOf (eventsAll boxed E.opts.propCuts top), live b.stmt = true) (hv : Visits ord)
    {net : NetGraph}
    (hn : netlist E ord top = .ok net) :
    ∃ P K, datas net = P ++ K ∧ (∀ d ∈ P, ∃ ev ∈ eventsAll boxed E.opts.propCuts top, Makes E.D ev d) ∧
      K.filter (!NodeData.derived ·) = textNodes (eventsAll boxed E.opts.propCuts top) ∧
      (∀ d ∈ K, NodeData.derived d = true → d = .merge ∨
        ∃ b ∈ blocksOf (eventsAll boxed E.opts.propCuts top), ∃ y, RegOf E (byBit E) b y d) ∧
      (K.filter (·.kind == .merge)).length ≤
        2 * ((blocksOf (eventsAll boxed E.opts.propCuts top)).map fun b => choices b.stmt).sum := by
  obtain ⟨c, h1, _, h3⟩ := walked h
  have hb : c.blocks = blocksOf (eventsAll boxed E.opts.propCuts top) := by rw [h3.blocks]; rfl
  refine nodes_of h hv (bit_grain (hp c h1) ?_ hl) (fun _ _ _ _ _ h k => ⟨h, k⟩) ?_ hn
  · intro b hm w hw
    exact List.mem_append_right _ (List.mem_flatMap.2 ⟨b, by rw [hb]; exact hm, hw⟩)
  · intro c' hc x hx
    rw [h1] at hc; cases hc
    exact fits_write (W := designWrites c.hist c.blocks) (w := ⟨x.1, x.2.bounds, {}, true⟩)
      (List.mem_append_left _ (List.mem_map.2 ⟨x, hx, rfl⟩))

/-! ### What follows for single nodes -/

theorem no_choice {ls : List Deferred} (h : 0 < 2 * (ls.map fun b => choices b.stmt).sum) :
    ∃ b ∈ ls, choices b.stmt ≠ 0 := by
  induction ls with
  | nil => simp at h
  | cons b ls ih =>
    by_cases hb : choices b.stmt = 0
    · obtain ⟨b', h1, h2⟩ := ih (by simp [hb] at h; omega)
      exact ⟨b', List.mem_cons_of_mem _ h1, h2⟩
    · exact ⟨b, List.mem_cons_self, hb⟩

/-- C68. Every node of the netlist belongs to something in the design. -/
theorem node_belongs {E : TravEnv} {boxed : Str → Str → Bool} {ord : Tracker → List (Nat × Nat)}
    {top : List Member} (h : Elaborated E boxed top) (hv : Visits ord) {net : NetGraph}
    (hn : netlist E ord top = .ok net) {n : Nat} (hm : n ∈ net.g.nodes) :
    Belongs E (eventsAll boxed E.opts.propCuts top) bySignal (net.data n) := by
  obtain ⟨P, K, h1, h2, h3, h4, h5⟩ := nodes_exact h hv hn
  have : net.data n ∈ datas net := List.mem_map.2 ⟨n, hm, rfl⟩
  rw [h1] at this
  rcases List.mem_append.1 this with hd | hd
  · exact .inl (h2 _ hd)
  · cases hd' : NodeData.derived (net.data n) with
    | false => exact .inr (.inl (h3 ▸ List.mem_filter.2 ⟨hd, by simp [hd']⟩))
    | true =>
      rcases h4 _ hd hd' with hm | hr
      · refine .inr (.inr (.inr ⟨hm, no_choice (Nat.lt_of_lt_of_le ?_ h5)⟩))
        exact List.length_pos_of_mem (List.mem_filter.2 ⟨hd, by rw [hm]; rfl⟩)
      · exact .inr (.inr (.inl hr))

theorem count_filter {p : NodeData → Bool} {d : NodeData} (hd : p d = true) (l : List NodeData) :
    (l.filter p).count d = l.count d := by
  induction l with
  | nil => rfl
  | cons a l ih =>
    by_cases ha : p a = true
    · rw [List.filter_cons_of_pos ha, List.count_cons, List.count_cons, ih]
    · rw [List.filter_cons_of_neg ha, List.count_cons, ih]
      have : ¬ (a == d) = true := fun h => ha (by rw [beq_iff_eq.1 h]; exact hd)
      simp [this]

/-- What is made for ports, variables and connections. -/
theorem makes_kind {D : Design} {ev : Event} {d : NodeData} (h : Makes D ev d) :
    d.kind = .port ∨ d.kind = .variable ∨ d.kind = .constant := by
  cases ev with
  | port p => obtain ⟨_, _, _, _, _, rfl⟩ := h; exact .inl rfl
  | «variable» s ds => obtain ⟨_, _, rfl⟩ := h; exact .inr (.inl rfl)
  | connect k => obtain ⟨_, _, _, rfl⟩ := h; exact .inr (.inr rfl)
  | cuts k => exact h.elim
  | block b => exact h.elim
  | box p => exact h.elim

/-- C68. There are as many assignment, conditional and case nodes for a place as the text has there. -/
theorem text_nodes_counted {E : TravEnv} {boxed : Str → Str → Bool} {ord : Tracker → List (Nat × Nat)}
    {top : List Member} (h : Elaborated E boxed top) (hv : Visits ord) {net : NetGraph}
    (hn : netlist E ord top = .ok net) {d : NodeData}
    (hd : d.kind = .assignment ∨ d.kind = .conditional ∨ d.kind = .case) :
    (datas net).count d = (textNodes (eventsAll boxed E.opts.propCuts top)).count d := by
  obtain ⟨P, K, h1, h2, h3, -, -⟩ := nodes_exact h hv hn
  have hP : P.count d = 0 := List.count_eq_zero.2 fun hm => by
    obtain ⟨ev, _, k⟩ := h2 d hm
    rcases makes_kind k with k | k | k <;> rcases hd with hd | hd | hd <;> rw [k] at hd <;> cases hd
  rw [h1, List.count_append, hP, Nat.zero_add, ← h3, count_filter]
  cases d with
  | merge => rcases hd with hd | hd | hd <;> cases hd
  | state => rcases hd with hd | hd | hd <;> cases hd
  | _ => rfl

theorem unique_of_count {l : List Nat} {f : Nat → NodeData} {d : NodeData} (h : (l.map f).count d = 1) {m n : Nat}
    (hl : l.Nodup) (hm : m ∈ l) (hn : n ∈ l) (h1 : f m = d) (h2 : f n = d) : m = n := by
  induction l with
  | nil => cases hm
  | cons a l ih =>
    have hpos : ∀ {k}, k ∈ l → f k = d → 0 < (l.map f).count d := fun hk e =>
      List.count_pos_iff.2 (List.mem_map.2 ⟨_, hk, e⟩)
    rw [List.map_cons, List.count_cons] at h
    rcases List.mem_cons.1 hm with e1 | hm <;> rcases List.mem_cons.1 hn with e2 | hn
    · exact e1.trans e2.symm
    · have := hpos hn h2; rw [if_pos (by simp [← e1, h1])] at h; omega
    · have := hpos hm h1; rw [if_pos (by simp [← e2, h2])] at h; omega
    · have := hpos hm h1
      exact ih (by split at h <;> omega) (List.nodup_cons.1 hl).2 hm hn

/-- C68. A place that the text has once has exactly one node. -/
theorem text_node_unique {E : TravEnv} {boxed : Str → Str → Bool} {ord : Tracker → List (Nat × Nat)}
    {top : List Member} (h : Elaborated E boxed top) (hv : Visits ord) {net : NetGraph}
    (hn : netlist E ord top = .ok net) {d : NodeData}
    (hd : d.kind = .assignment ∨ d.kind = .conditional ∨ d.kind = .case)
    (h1 : (textNodes (eventsAll boxed E.opts.propCuts top)).count d = 1) :
    ∃ n ∈ net.g.nodes, net.data n = d ∧ ∀ m ∈ net.g.nodes, net.data m = d → m = n := by
  have hc := text_nodes_counted h hv hn hd
  rw [h1] at hc
  have hp : 0 < (datas net).count d := by rw [hc]; exact Nat.zero_lt_one
  obtain ⟨n, hm, e⟩ := List.mem_map.1 (List.count_pos_iff.1 hp)
  exact ⟨n, hm, e, fun m hm' e' =>
    unique_of_count hc (reachable_wf (edges_justified h hv hn).1).nodup hm' hm e' e⟩

/-! ### Concrete designs -/

/-- The design of Props/Traverse has three assignments, each with one node; the other nodes are ports. -/
example : textNodes (eventsAll hdBoxed hdE.opts.propCuts hdTop) =
      [.assignment (ln 1), .assignment (ln 3), .assignment (ln 2)] ∧
    (datas hdNet).drop 8 = textNodes (eventsAll hdBoxed hdE.opts.propCuts hdTop) := by
  decide +kernel

example : ∃ n ∈ hdNet.g.nodes, hdNet.data n = .assignment (ln 3) ∧
    ∀ m ∈ hdNet.g.nodes, hdNet.data m = .assignment (ln 3) → m = n :=
  text_node_unique hd_elab hd_build.visits hd_net (.inl rfl) (by decide +kernel)

/-- `if (b) c = a; else c = 1;`: after the port come the conditional, the two assignments, the constant
and one merge. -/
example :
    let net := oneNet (.seq (.seq (.reads [dsRef 1]) (.branch false (ln 1)))
      (.choose true (.assign (ln 2) true (.aligned [⟨[dsRef 2], [.lsp (dsRef 0)], ln 2⟩]))
        (.assign (ln 3) true (.aligned [⟨[dsRef 2], [.constant ['1'] 8 {}], ln 3⟩]))))
    (datas net).map (·.kind) = [.port, .conditional, .assignment, .assignment, .constant, .merge] := by
  decide +kernel

end Verif.Props

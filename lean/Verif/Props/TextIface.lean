import Verif.Props.TextClock
import Verif.Props.IfaceTick

/-! C104: without a path there is no influence through interfaces, from the text of the design. -/
namespace Verif.Props
open Verif.Model Verif.Spec Verif.Proofs

/-- C104. C100 for the text of a design: assignments have the values of their right sides, which follow the
expressions bit by bit, and modport ports have the values of what they stand for. If the values of a bit that a block
assigns differ between two stable states, so do those of a source that no connection supplies, and a path without
registers leads from a node that reads it to the node of an assignment that can leave the bit its value. The text of
the design is that of `src` with its places changed by `f`; in `src` every assignment, conditional and case has a place
of its own. Missing: dynamic selects on the left or in assignments that are aligned (C72), and designs that are not
regular (C100). -/
theorem text_via_partial {V : Type} {M : Sense V} {E : TravEnv} {auto : Nat → Bool}
    (hauto : ∀ x, auto x = false) {boxed : Str → Str → Bool} {ord : Tracker → List (Nat × Nat)} {src : SrcDesign}
    {f : TextLoc → TextLoc} {c : Col} {net : NetGraph} (hc : phase1 E src.tree = .ok c)
    (hn : netlistOf E auto atLoc ord (moveDesign f src) = .ok net)
    (hb : Buildable E boxed ord (seenAll ⟨E, c.synCuts E, auto⟩ atLoc (moveDesign f src)))
    (hmarks : ((blocksOf (eventsAll boxed E.opts.propCuts src.tree)).flatMap
      fun b => marksOf (SDeferred.stmt (src.text b))).Nodup)
    (hl : combLoops net = [])
    {via : Nat → Nat → Nat × Nat}
    (hr : RegularVia E (eventsAll boxed E.opts.propCuts (seenAll ⟨E, c.synCuts E, auto⟩ spot src)) c.cuts via)
    (hf : TextFaithful M ⟨E, c.synCuts E, auto⟩ src.text (blocksOf (eventsAll boxed E.opts.propCuts src.tree))
      (eventsAll boxed E.opts.propCuts (seenAll ⟨E, c.synCuts E, auto⟩ spot src))) {σ σ' : Vals V}
    (hs : TextSolves M E src.text (blocksOf (eventsAll boxed E.opts.propCuts src.tree))
      (eventsAll boxed E.opts.propCuts (seenAll ⟨E, c.synCuts E, auto⟩ spot src)) σ)
    (hs' : TextSolves M E src.text (blocksOf (eventsAll boxed E.opts.propCuts src.tree))
      (eventsAll boxed E.opts.propCuts (seenAll ⟨E, c.synCuts E, auto⟩ spot src)) σ')
    (hv : Shared E (eventsAll boxed E.opts.propCuts (seenAll ⟨E, c.synCuts E, auto⟩ spot src)) via σ)
    (hv' : Shared E (eventsAll boxed E.opts.propCuts (seenAll ⟨E, c.synCuts E, auto⟩ spot src)) via σ')
    {b : Deferred} (hbm : b ∈ blocksOf (eventsAll boxed E.opts.propCuts src.tree)) (hk : ¬ TextClocked (src.text b))
    {x j : Nat} (hw : Assigns (SDeferred.stmt (src.text b)) x j) (hne : σ x j ≠ σ' x j) :
    ∃ net', netlist E ord (seenAll ⟨E, c.synCuts E, auto⟩ spot src) = .ok net' ∧ net = moveNet (f ∘ unspot) net' ∧
      ∃ loc, Leaves (seen ⟨E, c.synCuts E, auto⟩ spot src.text b).stmt x j loc ∧ ∃ s q z i who,
      OuterSource E (eventsAll boxed E.opts.propCuts (seenAll ⟨E, c.synCuts E, auto⟩ spot src)) c.cuts via s q ∧
      (∀ k e, ¬ Wired (eventsAll boxed E.opts.propCuts (seenAll ⟨E, c.synCuts E, auto⟩ spot src)) s q k e) ∧
      σ s q ≠ σ' s q ∧
      Brings E (eventsAll boxed E.opts.propCuts (seenAll ⟨E, c.synCuts E, auto⟩ spot src)) s q z i ∧
      Fetches (eventsAll boxed E.opts.propCuts (seenAll ⟨E, c.synCuts E, auto⟩ spot src)) z i who ∧
      ∃ m ∈ net.g.nodes, ∃ n ∈ net.g.nodes, net'.data m = who ∧ net'.data n = .assignment loc ∧
        Reach (CombStep net) m n := by
  obtain ⟨c', h1, h2, h3, h4, h5, h6, h7⟩ := text_built hc hn hb hmarks
  obtain ⟨M', m1, m2, m3⟩ := text_meaning (S := ⟨E, c.synCuts E, auto⟩) h5 hauto h6 h7 hmarks hf
  have hbs : seen ⟨E, c.synCuts E, auto⟩ spot src.text b ∈
      blocksOf (eventsAll boxed E.opts.propCuts (seenAll ⟨E, c.synCuts E, auto⟩ spot src)) := by
    rw [seenAll, eventsAll_swap, blocksOf_swap]
    exact List.mem_map.2 ⟨b, hbm, rfl⟩
  obtain ⟨net', g1, g2, loc, g3, s, q, z, i, who, g4, g5, g6⟩ :=
    influence_via_partial hb h1 h3 h4 hl (h2 ▸ hr) m1 (m2 σ hs) (m2 σ' hs') hv hv' hbs
      (fun ht => hk ((elabBlock_clocked (h7 b hbm)).1 ht)) ((m3 b hbm hk x j).2 hw) hne
  refine ⟨net', g1, g2, loc, g3, s, q, z, i, who, h2 ▸ g4, fun k e hwd => ?_, g5, g6⟩
  exact g5 (wired_constant (S := ⟨E, c.synCuts E, auto⟩) h6 hf hs hs' hwd g4.1.2)

/-- C104, from input ports to an output port, in terms of the answers of the tool. Two stable states of the text
differ, among the bits that neither a block assigns nor a connection nor an interface supplies, in bits of input ports
only. If the tool reports no combinational loop, and answers every query for a combinational path from a node of an
input port with a changed bit to a node of output port `p` with bit `j` by the empty path, then bit `j` of the output
is the same in both states. -/
theorem text_same_via_partial {V : Type} {M : Sense V} {E : TravEnv} {auto : Nat → Bool}
    (hauto : ∀ x, auto x = false) {boxed : Str → Str → Bool} {ord : Tracker → List (Nat × Nat)} {src : SrcDesign}
    {f : TextLoc → TextLoc} {c : Col} {net : NetGraph} (hc : phase1 E src.tree = .ok c)
    (hn : netlistOf E auto atLoc ord (moveDesign f src) = .ok net)
    (hb : Buildable E boxed ord (seenAll ⟨E, c.synCuts E, auto⟩ atLoc (moveDesign f src)))
    (hmarks : ((blocksOf (eventsAll boxed E.opts.propCuts src.tree)).flatMap
      fun b => marksOf (SDeferred.stmt (src.text b))).Nodup)
    (hl : combLoops net = [])
    {via : Nat → Nat → Nat × Nat}
    (hr : RegularVia E (eventsAll boxed E.opts.propCuts (seenAll ⟨E, c.synCuts E, auto⟩ spot src)) c.cuts via)
    (hf : TextFaithful M ⟨E, c.synCuts E, auto⟩ src.text (blocksOf (eventsAll boxed E.opts.propCuts src.tree))
      (eventsAll boxed E.opts.propCuts (seenAll ⟨E, c.synCuts E, auto⟩ spot src))) {σ σ' : Vals V}
    (hs : TextSolves M E src.text (blocksOf (eventsAll boxed E.opts.propCuts src.tree))
      (eventsAll boxed E.opts.propCuts (seenAll ⟨E, c.synCuts E, auto⟩ spot src)) σ)
    (hs' : TextSolves M E src.text (blocksOf (eventsAll boxed E.opts.propCuts src.tree))
      (eventsAll boxed E.opts.propCuts (seenAll ⟨E, c.synCuts E, auto⟩ spot src)) σ')
    (hv : Shared E (eventsAll boxed E.opts.propCuts (seenAll ⟨E, c.synCuts E, auto⟩ spot src)) via σ)
    (hv' : Shared E (eventsAll boxed E.opts.propCuts (seenAll ⟨E, c.synCuts E, auto⟩ spot src)) via σ')
    (hp : ∀ s q, OuterSource E (eventsAll boxed E.opts.propCuts (seenAll ⟨E, c.synCuts E, auto⟩ spot src)) c.cuts via s q →
      (∀ k e, ¬ Wired (eventsAll boxed E.opts.propCuts (seenAll ⟨E, c.synCuts E, auto⟩ spot src)) s q k e) →
      σ s q ≠ σ' s q → Bare (eventsAll boxed E.opts.propCuts (seenAll ⟨E, c.synCuts E, auto⟩ spot src)) s ∧
        E.D.kind s ≠ .modportPort ∧
        ∃ p, LastSupply (eventsAll boxed E.opts.propCuts (seenAll ⟨E, c.synCuts E, auto⟩ spot src)) s q p)
    {b : Deferred} (hbm : b ∈ blocksOf (eventsAll boxed E.opts.propCuts src.tree)) (hk : ¬ TextClocked (src.text b))
    {x j : Nat} (hw : Assigns (SDeferred.stmt (src.text b)) x j) {p : PortDecl}
    (hpo : .port p ∈ eventsAll boxed E.opts.propCuts (seenAll ⟨E, c.synCuts E, auto⟩ spot src))
    (hx : E.D.port x = some p.sym) {lo hi : Int} (hsp : Spans E c.cuts p x lo hi)
    (hin : ∀ w ∈ allWrites (seen ⟨E, c.synCuts E, auto⟩ spot src.text b).stmt, w.sym = x → InRng w.bounds j →
      lo ≤ w.bounds.lower ∧ w.bounds.upper ≤ hi)
    (hno : ∀ (s q n m : Nat) p',
      LastSupply (eventsAll boxed E.opts.propCuts (seenAll ⟨E, c.synCuts E, auto⟩ spot src)) s q p' → σ s q ≠ σ' s q →
      PortNode E.D net p' q n → PortNode E.D net p j m → findComb net n m = some []) : σ x j = σ' x j := by
  obtain ⟨c', h1, h2, h3, h4, h5, h6, h7⟩ := text_built hc hn hb hmarks
  obtain ⟨M', m1, m2, m3⟩ := text_meaning (S := ⟨E, c.synCuts E, auto⟩) h5 hauto h6 h7 hmarks hf
  have hbs : seen ⟨E, c.synCuts E, auto⟩ spot src.text b ∈
      blocksOf (eventsAll boxed E.opts.propCuts (seenAll ⟨E, c.synCuts E, auto⟩ spot src)) := by
    rw [seenAll, eventsAll_swap, blocksOf_swap]
    exact List.mem_map.2 ⟨b, hbm, rfl⟩
  refine no_path_same_via_partial hb h1 h3 h4 hl (h2 ▸ hr) m1 (m2 σ hs) (m2 σ' hs') hv hv' (fun s q g1 g2 => ?_) hbs
    (fun ht => hk ((elabBlock_clocked (h7 b hbm)).1 ht)) ((m3 b hbm hk x j).2 hw) hpo hx (h2 ▸ hsp) hin hno
  exact hp s q (h2 ▸ g1)
    (fun k e hwd => g2 (wired_constant (S := ⟨E, c.synCuts E, auto⟩) h6 hf hs hs' hwd g1.1.2)) g2

/-- C104. C102 for the text of a design, with its registers: edge-triggered blocks schedule, for the bits on the left
of their non-blocking assignments, the values of the right sides. The text is observed twice, with the same edges of
its clocks and the same values of its registers at the beginning. If a bit that a block gives its value ever differs,
then at this time or before, a bit that comes from outside has differed, and a path leads from a node that reads it to
the node of an assignment that can leave the bit its value. Missing: dynamic selects (C72), designs that are not
regular or not timed, and effects on the time at which blocks fire (see `clock_lost_on_interface`). -/
theorem text_over_time_via_partial {V : Type} {M : Sense V} {E : TravEnv} {auto : Nat → Bool}
    (hauto : ∀ x, auto x = false) {boxed : Str → Str → Bool} {ord : Tracker → List (Nat × Nat)} {src : SrcDesign}
    {f : TextLoc → TextLoc} {c : Col} {net : NetGraph} (hc : phase1 E src.tree = .ok c)
    (hn : netlistOf E auto atLoc ord (moveDesign f src) = .ok net)
    (hb : Buildable E boxed ord (seenAll ⟨E, c.synCuts E, auto⟩ atLoc (moveDesign f src)))
    (hmarks : ((blocksOf (eventsAll boxed E.opts.propCuts src.tree)).flatMap
      fun b => marksOf (SDeferred.stmt (src.text b))).Nodup)
    (hl : combLoops net = [])
    {via : Nat → Nat → Nat × Nat}
    (hr : RegularVia E (eventsAll boxed E.opts.propCuts (seenAll ⟨E, c.synCuts E, auto⟩ spot src)) c.cuts via)
    (ht : TimedVia E (eventsAll boxed E.opts.propCuts (seenAll ⟨E, c.synCuts E, auto⟩ spot src)) c.cuts via)
    (hf : TextFaithful M ⟨E, c.synCuts E, auto⟩ src.text (blocksOf (eventsAll boxed E.opts.propCuts src.tree))
      (eventsAll boxed E.opts.propCuts (seenAll ⟨E, c.synCuts E, auto⟩ spot src)))
    (hf' : ∀ b ∈ blocksOf (eventsAll boxed E.opts.propCuts src.tree), TextClocked (src.text b) →
      Suits M ⟨E, c.synCuts E, auto⟩ (SDeferred.stmt (src.text b)))
    {fire : Nat → Deferred → Bool} {σ σ' : Nat → Vals V}
    (hs : TextUnrolls M E src.text (blocksOf (eventsAll boxed E.opts.propCuts src.tree))
      (eventsAll boxed E.opts.propCuts (seenAll ⟨E, c.synCuts E, auto⟩ spot src)) fire σ)
    (hs' : TextUnrolls M E src.text (blocksOf (eventsAll boxed E.opts.propCuts src.tree))
      (eventsAll boxed E.opts.propCuts (seenAll ⟨E, c.synCuts E, auto⟩ spot src)) fire σ')
    (hw : ∀ t, Shared E (eventsAll boxed E.opts.propCuts (seenAll ⟨E, c.synCuts E, auto⟩ spot src)) via (σ t))
    (hw' : ∀ t, Shared E (eventsAll boxed E.opts.propCuts (seenAll ⟨E, c.synCuts E, auto⟩ spot src)) via (σ' t))
    (hi : ∀ b ∈ blocksOf (eventsAll boxed E.opts.propCuts src.tree), ∀ x j, TextKept (src.text b) x j →
      σ 0 x j = σ' 0 x j)
    {b : Deferred} (hbm : b ∈ blocksOf (eventsAll boxed E.opts.propCuts src.tree)) {x j t : Nat}
    (hv : TextGives (src.text b) x j) (hne : σ t x j ≠ σ' t x j) :
    ∃ net', netlist E ord (seenAll ⟨E, c.synCuts E, auto⟩ spot src) = .ok net' ∧ net = moveNet (f ∘ unspot) net' ∧
      ∃ loc, Leaves (seen ⟨E, c.synCuts E, auto⟩ spot src.text b).stmt x j loc ∧ ∃ t' ≤ t, ∃ s q z i who,
      OuterSource E (eventsAll boxed E.opts.propCuts (seenAll ⟨E, c.synCuts E, auto⟩ spot src)) c.cuts via s q ∧
      ¬ HeldVia E (eventsAll boxed E.opts.propCuts (seenAll ⟨E, c.synCuts E, auto⟩ spot src)) c.cuts via s q ∧
      (∀ k e, ¬ Wired (eventsAll boxed E.opts.propCuts (seenAll ⟨E, c.synCuts E, auto⟩ spot src)) s q k e) ∧
      σ t' s q ≠ σ' t' s q ∧
      Brings E (eventsAll boxed E.opts.propCuts (seenAll ⟨E, c.synCuts E, auto⟩ spot src)) s q z i ∧
      Sees (eventsAll boxed E.opts.propCuts (seenAll ⟨E, c.synCuts E, auto⟩ spot src)) z i who ∧
      ∃ m ∈ net.g.nodes, ∃ n ∈ net.g.nodes, net'.data m = who ∧ net'.data n = .assignment loc ∧
        Reach (Joined net) m n := by
  obtain ⟨c', h1, h2, h3, h4, h5, h6, h7⟩ := text_built hc hn hb hmarks
  obtain ⟨M', T', m1, m2, m3, m4, m5, m6, _⟩ :=
    text_over_time (S := ⟨E, c.synCuts E, auto⟩) h5 hauto h6 h7 hmarks hf hf'
      (T := fun _ => fire) (fun _ _ _ _ _ _ => rfl)
  have hbs : blocksOf (eventsAll boxed E.opts.propCuts (seenAll ⟨E, c.synCuts E, auto⟩ spot src)) =
      (blocksOf (eventsAll boxed E.opts.propCuts src.tree)).map (seen ⟨E, c.synCuts E, auto⟩ spot src.text) := by
    rw [seenAll, eventsAll_swap, blocksOf_swap]
  obtain ⟨net', g1, g2, loc, g0, t', g3, s, q, z, i, who, g4, g5, g6, g7, g8⟩ :=
    over_time_via_partial hb h1 h3 h4 hl (h2 ▸ hr) (h2 ▸ ht) m1 m2 (m4 σ hs)
      (m6 σ' σ rfl ▸ m4 σ' hs') hw hw'
      (fun b' hb' x j hk => by
        rw [hbs] at hb'
        obtain ⟨b, hb, rfl⟩ := List.mem_map.1 hb'
        exact hi b hb x j ((m5 b hb x j).1.1 hk))
      (hbs ▸ List.mem_map.2 ⟨b, hbm, rfl⟩) ((m5 b hbm x j).2.2 hv) hne
  refine ⟨net', g1, g2, loc, g0, t', g3, s, q, z, i, who, h2 ▸ g4, h2 ▸ g5, fun k e hwd => ?_, g6, g7, g8⟩
  exact g6 (wired_constant (S := ⟨E, c.synCuts E, auto⟩) h6 hf (hs.stable t') (hs'.stable t') hwd g4.1.2)

/-- C104, from input ports to an output port, over time, in terms of the answers of the tool. -/
theorem text_forever_via_partial {V : Type} {M : Sense V} {E : TravEnv} {auto : Nat → Bool}
    (hauto : ∀ x, auto x = false) {boxed : Str → Str → Bool} {ord : Tracker → List (Nat × Nat)} {src : SrcDesign}
    {f : TextLoc → TextLoc} {c : Col} {net : NetGraph} (hc : phase1 E src.tree = .ok c)
    (hn : netlistOf E auto atLoc ord (moveDesign f src) = .ok net)
    (hb : Buildable E boxed ord (seenAll ⟨E, c.synCuts E, auto⟩ atLoc (moveDesign f src)))
    (hmarks : ((blocksOf (eventsAll boxed E.opts.propCuts src.tree)).flatMap
      fun b => marksOf (SDeferred.stmt (src.text b))).Nodup)
    (hl : combLoops net = [])
    {via : Nat → Nat → Nat × Nat}
    (hr : RegularVia E (eventsAll boxed E.opts.propCuts (seenAll ⟨E, c.synCuts E, auto⟩ spot src)) c.cuts via)
    (ht : TimedVia E (eventsAll boxed E.opts.propCuts (seenAll ⟨E, c.synCuts E, auto⟩ spot src)) c.cuts via)
    (hf : TextFaithful M ⟨E, c.synCuts E, auto⟩ src.text (blocksOf (eventsAll boxed E.opts.propCuts src.tree))
      (eventsAll boxed E.opts.propCuts (seenAll ⟨E, c.synCuts E, auto⟩ spot src)))
    (hf' : ∀ b ∈ blocksOf (eventsAll boxed E.opts.propCuts src.tree), TextClocked (src.text b) →
      Suits M ⟨E, c.synCuts E, auto⟩ (SDeferred.stmt (src.text b)))
    {fire : Nat → Deferred → Bool} {σ σ' : Nat → Vals V}
    (hs : TextUnrolls M E src.text (blocksOf (eventsAll boxed E.opts.propCuts src.tree))
      (eventsAll boxed E.opts.propCuts (seenAll ⟨E, c.synCuts E, auto⟩ spot src)) fire σ)
    (hs' : TextUnrolls M E src.text (blocksOf (eventsAll boxed E.opts.propCuts src.tree))
      (eventsAll boxed E.opts.propCuts (seenAll ⟨E, c.synCuts E, auto⟩ spot src)) fire σ')
    (hw : ∀ t, Shared E (eventsAll boxed E.opts.propCuts (seenAll ⟨E, c.synCuts E, auto⟩ spot src)) via (σ t))
    (hw' : ∀ t, Shared E (eventsAll boxed E.opts.propCuts (seenAll ⟨E, c.synCuts E, auto⟩ spot src)) via (σ' t))
    (hi : ∀ b ∈ blocksOf (eventsAll boxed E.opts.propCuts src.tree), ∀ x j, TextKept (src.text b) x j →
      σ 0 x j = σ' 0 x j)
    (hp : ∀ t s q, OuterSource E (eventsAll boxed E.opts.propCuts (seenAll ⟨E, c.synCuts E, auto⟩ spot src)) c.cuts via s q →
      ¬ HeldVia E (eventsAll boxed E.opts.propCuts (seenAll ⟨E, c.synCuts E, auto⟩ spot src)) c.cuts via s q →
      (∀ k e, ¬ Wired (eventsAll boxed E.opts.propCuts (seenAll ⟨E, c.synCuts E, auto⟩ spot src)) s q k e) →
      σ t s q ≠ σ' t s q → Bare (eventsAll boxed E.opts.propCuts (seenAll ⟨E, c.synCuts E, auto⟩ spot src)) s ∧
        E.D.kind s ≠ .modportPort ∧
        ∃ p, LastSupply (eventsAll boxed E.opts.propCuts (seenAll ⟨E, c.synCuts E, auto⟩ spot src)) s q p)
    {b : Deferred} (hbm : b ∈ blocksOf (eventsAll boxed E.opts.propCuts src.tree)) {x j : Nat}
    (hv : TextGives (src.text b) x j) {p : PortDecl}
    (hpo : .port p ∈ eventsAll boxed E.opts.propCuts (seenAll ⟨E, c.synCuts E, auto⟩ spot src))
    (hx : E.D.port x = some p.sym) {lo hi' : Int} (hsp : Spans E c.cuts p x lo hi')
    (hin : ∀ w ∈ allWrites (seen ⟨E, c.synCuts E, auto⟩ spot src.text b).stmt, w.sym = x → InRng w.bounds j →
      lo ≤ w.bounds.lower ∧ w.bounds.upper ≤ hi')
    (hno : ∀ (t s q n m : Nat) p',
      LastSupply (eventsAll boxed E.opts.propCuts (seenAll ⟨E, c.synCuts E, auto⟩ spot src)) s q p' →
      σ t s q ≠ σ' t s q → PortNode E.D net p' q n → PortNode E.D net p j m →
      p'.dir ≠ p.dir ∧ findPath net n m = some []) (t : Nat) : σ t x j = σ' t x j := by
  obtain ⟨c', h1, h2, h3, h4, h5, h6, h7⟩ := text_built hc hn hb hmarks
  obtain ⟨M', T', m1, m2, m3, m4, m5, m6, _⟩ :=
    text_over_time (S := ⟨E, c.synCuts E, auto⟩) h5 hauto h6 h7 hmarks hf hf'
      (T := fun _ => fire) (fun _ _ _ _ _ _ => rfl)
  have hbs : blocksOf (eventsAll boxed E.opts.propCuts (seenAll ⟨E, c.synCuts E, auto⟩ spot src)) =
      (blocksOf (eventsAll boxed E.opts.propCuts src.tree)).map (seen ⟨E, c.synCuts E, auto⟩ spot src.text) := by
    rw [seenAll, eventsAll_swap, blocksOf_swap]
  refine no_path_forever_via_partial hb h1 h3 h4 hl (h2 ▸ hr) (h2 ▸ ht) m1 m2 (m4 σ hs)
      (m6 σ' σ rfl ▸ m4 σ' hs') hw hw'
    (fun b' hb' x j hk => ?_) (fun t s q g1 g2 g3 => ?_) (hbs ▸ List.mem_map.2 ⟨b, hbm, rfl⟩)
    ((m5 b hbm x j).2.2 hv) hpo hx (h2 ▸ hsp) hin hno t
  · rw [hbs] at hb'
    obtain ⟨b, hb, rfl⟩ := List.mem_map.1 hb'
    exact hi b hb x j ((m5 b hb x j).1.1 hk)
  · exact hp t s q (h2 ▸ g1) (h2 ▸ g2) (fun k e hwd => g3 (wired_constant (S := ⟨E, c.synCuts E, auto⟩) h6 hf
      (hs.stable t) (hs'.stable t) hwd g1.1.2)) g3

/-! ### A concrete case
```
interface I; logic [7:0] m; modport p(output m); modport c(input m); endinterface
module prod(I.p i, input [7:0] a); assign i.m = a; endmodule          // line 1
module cons(I.c i, input clk, output [7:0] y);
  logic [7:0] q, u; always_ff @(posedge clk) q <= i.m;                // line 2
  assign u = i.m;                                                     // line 3
  assign y = q; endmodule                                             // line 4
module t(input clk, [7:0] a, c, output [7:0] y, w); I i();
  assign w = c;                                                       // line 5
```
The insides of the ports are the signals 0, 3, 1 and 4, `q` is signal 2, `u` is signal 6, `clk` is signal 9, the modport
ports are the signals 30 and 31, and the variable `m` is signal 32. -/

def iuB1 : Deferred := .continuous (tkAt 1) (.aligned [⟨[dsRef 30], [.lsp (dsRef 0)], tkAt 1⟩])
def iuB2 : Deferred := .procedural .alwaysFF (.timed (.signalEvent ⟨.posEdge, some 9⟩))
  (.assign (tkAt 2) false (.aligned [⟨[dsRef 2], [.lsp (dsRef 31)], tkAt 2⟩]))
def iuB3 : Deferred := .continuous (tkAt 3) (.aligned [⟨[dsRef 6], [.lsp (dsRef 31)], tkAt 3⟩])

def iuTop : List Member := [.inst false ['t'] ['t'] [.port (hdIn 20 0), .port (hdIn 22 3), .port (hdOut 21 1),
  .port (hdOut 23 4), .inst false ['I'] ['t', '.', 'i'] [.variable 32 true [(0, 7)]] [],
  .block iuB1, .block iuB2, .block iuB3, .block tkB2, .block tkB3] []]

def iuEvents : List Event := [.port (hdIn 20 0), .port (hdIn 22 3), .port (hdOut 21 1), .port (hdOut 23 4),
  .variable 32 [(0, 7)], .block iuB1, .block iuB2, .block iuB3, .block tkB2, .block tkB3]

def iuText : Deferred → SDeferred
  | .procedural .. => .procedural .alwaysFF (.timed (.signalEvent ⟨.posEdge, some 9⟩)) (.assign false (tcAsg 2 2 31))
  | .continuous l _ => .continuous (if l.line = 1 then tcAsg 1 30 0 else if l.line = 3 then tcAsg 3 6 31 else
      if l.line = 4 then tcAsg 4 1 2 else tcAsg 5 4 3)

def iuSrc : SrcDesign := ⟨iuTop, iuText⟩
def iuCol : Col := (phase1 ivE iuTop).toOption.getD {}
def iuNet : NetGraph := (netlistOf ivE (fun _ => false) atLoc Tracker.slots (moveDesign id iuSrc)).toOption.getD {}
abbrev iuBs : List Deferred := [iuB1, iuB2, iuB3, tkB2, tkB3]

theorem iu_events : eventsAll hdBoxed ivE.opts.propCuts iuTop = iuEvents := by
  show eventsAll hdBoxed true iuTop = iuEvents
  simp [iuTop, eventsAll, events, hdBoxed, iuEvents]

theorem iu_all_blocks : blocksOf iuEvents = iuBs := rfl

theorem iu_elab : Elaborated ivE hdBoxed iuTop where
  boxes := by simp [DecidesBoxes, Boxed, hdBoxed, ivE, hdE]
  ok := by
    rw [iu_events]
    simp [iuEvents, EventOk, hdIn, hdOut, PortDriver.hi, ivE, ivD, hdE, hdD]
  once := by
    rw [iu_events]
    show [20, 22, 21, 23, 32].Nodup
    decide

theorem iu_phase1 : phase1 ivE iuTop = .ok iuCol := by
  obtain ⟨c, h, _⟩ := phase1_total_partial iu_elab
  rw [iuCol, h]; rfl

theorem iu_build : Buildable ivE hdBoxed Tracker.slots iuTop where
  design := iu_elab
  plain := by
    intro c hc
    rw [iu_phase1] at hc
    exact Except.ok.inj hc ▸
      plain_of_two (lo := 0) (mid := 3) (hi := 7) (by decide) (by decide) (by decide +kernel) (by decide) (by decide)
  live := by
    rw [iu_events, iu_all_blocks]
    intro b hb; simp at hb; rcases hb with rfl | rfl | rfl | rfl | rfl <;> decide
  events := by
    rw [iu_events, iu_all_blocks]
    intro b hb; simp at hb
    rcases hb with rfl | rfl | rfl | rfl | rfl
    · trivial
    · simp [iuB2, PlainEvents, SignalEventsOnly, eventsOf, PlainClocks]
    · trivial
    · trivial
    · trivial
  visits := fun _ => List.Perm.refl _
  ports := by
    rw [iu_events, iu_all_blocks]
    have : ∀ b ∈ iuBs, ∀ w ∈ allWrites b.stmt, w.sym < 20 ∨ w.sym = 30 := by
      intro b hb; simp at hb; rcases hb with rfl | rfl | rfl | rfl | rfl <;> decide
    intro p hp b hb w hw
    have := this b hb w hw
    simp [iuEvents, hdIn, hdOut] at hp
    rcases hp with rfl | rfl | rfl | rfl <;> simp only <;> omega

theorem iu_clear {b : Deferred} (hb : b = iuB1 ∨ b = iuB3 ∨ b = tkB2 ∨ b = tkB3) : ¬ Clocked b := by
  rintro ⟨⟨v, hv, _⟩, _⟩
  rcases hb with rfl | rfl | rfl | rfl <;> cases hv

theorem iu_clocked : Clocked iuB2 := ⟨⟨_, List.mem_singleton.2 rfl, by decide⟩, by simp [iuB2, blockEvents, eventsOf]⟩

theorem iu_comb {b : Deferred} (hb : b ∈ blocksOf iuEvents) (hc : ¬ Clocked b) :
    b = iuB1 ∨ b = iuB3 ∨ b = tkB2 ∨ b = tkB3 := by
  rw [iu_all_blocks] at hb; simp at hb
  rcases hb with h | rfl | h
  · exact .inl h
  · exact absurd iu_clocked hc
  · exact .inr h

theorem iu_reg {b : Deferred} (hb : b ∈ blocksOf iuEvents) (hc : Clocked b) : b = iuB2 := by
  rw [iu_all_blocks] at hb; simp at hb
  rcases hb with h | h | h
  · exact absurd hc (iu_clear (.inl h))
  · exact h
  · exact absurd hc (iu_clear (.inr h))

theorem iu_declares {y : Nat} (h : y < 20) : ∀ ev ∈ iuEvents, y ∉ declares ev := by
  intro ev hev hy
  simp [iuEvents] at hev
  rcases hev with rfl | rfl | rfl | rfl | rfl | rfl | rfl | rfl | rfl | rfl <;> simp [declares, hdIn, hdOut] at hy <;> omega

theorem iu_write {w : Wr} (hw : w ∈ allWrites iuB2.stmt) : w = ⟨2, ⟨0, 7⟩, tkAt 2, false⟩ := by
  simpa [iuB2, Deferred.stmt, allWrites, asgWrites, dsRef] using hw

theorem iu_bare {y : Nat} (h : y < 20) (h2 : y ≠ 2) : Bare iuEvents y := by
  refine ⟨iu_declares h, fun b hb hc w hw => ?_⟩
  obtain rfl := iu_reg hb hc
  rw [iu_write hw]; simp only; omega

theorem iu_on {y : Nat} : OnIface ivE iuEvents y ↔ y = 30 ∨ y = 31 ∨ y = 32 := by
  constructor
  · rintro (h | ⟨ds, h⟩)
    · by_cases h1 : y = 30 ∨ y = 31
      · omega
      · by_cases h2 : y = 32 <;> simp [ivE, ivD, h1, h2] at h
    · simp [iuEvents] at h; omega
  · rintro (rfl | rfl | rfl)
    · exact .inl rfl
    · exact .inl rfl
    · exact .inr ⟨[(0, 7)], by simp [iuEvents]⟩

theorem iu_no_conn {p : PortDecl} {k : Conn} : ¬ Before iuEvents p k := by
  intro h
  have := (before_mem h).2
  simp [iuEvents] at this

theorem iu_no_inlet {y q x j : Nat} : ¬ Inlet ivE iuEvents y q x j := by
  rintro ⟨p, k, _, h, _⟩
  exact iu_no_conn h.1

theorem iu_no_up {prev : Option Conn} {x y j q : Nat} {lo hi : Int} {cuts : CutReg} :
    ¬ Up ivE iuEvents cuts prev x lo hi j y q := by
  intro h
  cases h with
  | one h => obtain ⟨p, _, h, _⟩ := h; exact iu_no_conn h.1
  | more h _ => obtain ⟨p, _, h, _⟩ := h; exact iu_no_conn h.1

theorem iu_wr {b : Deferred} (hb : b = iuB1 ∨ b = iuB3 ∨ b = tkB2 ∨ b = tkB3) {w : Wr} (hw : w ∈ allWrites b.stmt) :
    w.sym = 30 ∨ w.sym = 6 ∨ w.sym = 1 ∨ w.sym = 4 := by
  rcases hb with rfl | rfl | rfl | rfl <;>
    simp [iuB1, iuB3, tkB2, tkB3, Deferred.stmt, allWrites, asgWrites, dsRef] at hw <;> subst hw <;> simp

theorem iu_assigned {y q : Nat} {cuts : CutReg} (h : Assigned ivE iuEvents cuts y q) :
    y = 30 ∨ y = 6 ∨ y = 1 ∨ y = 4 := by
  obtain ⟨b, hb, hc, x, j, ⟨w, hw, _, hx, _⟩, h⟩ := h
  rcases h with ⟨_, rfl, _⟩ | ⟨_, _, _, h⟩
  · rw [← hx]; exact iu_wr (iu_comb hb hc) hw
  · exact absurd h iu_no_up

theorem iu_assigns {b : Deferred} (hb : b ∈ blocksOf iuEvents) (hc : ¬ Clocked b) {y q : Nat} {loc : TextLoc} {cuts : CutReg}
    (h : (⟨y, ⟨0, 7⟩, loc, true⟩ : Wr) ∈ allWrites b.stmt) (hq : q ≤ 7) : Assigned ivE iuEvents cuts y q :=
  ⟨b, hb, hc, y, q, ⟨_, h, rfl, rfl, eight.2 (by omega)⟩, .inl ⟨hc, rfl, rfl⟩⟩

theorem iu_driven {q : Nat} {d : Nat × Nat} (h : DrivenRange iuEvents 32 q d) : d = (0, 7) := by
  obtain ⟨_, _, ds, h1, h2⟩ := h
  simp [iuEvents] at h1
  subst h1
  simpa using h2

theorem iu_takes {who : NodeData} {Q : List Wr → Prop} {b : Deferred} {i : Nat} (_ : Use Start b.stmt who (dsRef 31) Q)
    (hi : InRng (dsRef 31).bounds i) (hno : ∀ tr, Q tr → ∀ w ∈ tr, ¬ Hits true (dsRef 31).sym i w) :
    ∃ d, DrivenRange iuEvents (ivVia (dsRef 31).sym i).1 (ivVia (dsRef 31).sym i).2 d ∧
      TakesFrom ivE.D (dsRef 31) Q ((ivVia (dsRef 31).sym i).1, ⟨d.1, (d.1 : Int) + d.2⟩) := by
  have hi' : 0 ≤ (i : Int) ∧ (i : Int) ≤ 7 := eight.1 hi
  exact ⟨(0, 7), ⟨by simp, by simp [ivVia, dsRef]; omega, [(0, 7)], by simp [iuEvents, ivVia, dsRef], by simp⟩,
    .inl ⟨rfl, List.mem_singleton.2 rfl, i, hi, hno⟩⟩

theorem iu_regular (cuts : CutReg) : RegularVia ivE iuEvents cuts ivVia where
  comb := by
    intro b hb hc
    rcases iu_comb hb hc with rfl | rfl | rfl | rfl <;> exact comb_single (by decide)
  settled := by
    intro b hb hc
    rcases iu_comb hb hc with rfl | rfl | rfl | rfl <;> exact settled_apart (by decide) (by decide)
  complete := by
    intro b hb hc x p ⟨w, hw, hh⟩ tr ht
    rcases iu_comb hb hc with rfl | rfl | rfl | rfl <;> cases ht <;> exact ⟨w, hw, hh⟩
  assigned := by
    intro y q h
    rcases iu_assigned h with rfl | rfl | rfl | rfl
    · exact .inl (iu_on.2 (.inl rfl))
    · exact .inr ⟨iu_bare (by decide) (by decide), by decide⟩
    · exact .inr ⟨iu_bare (by decide) (by decide), by decide⟩
    · exact .inr ⟨iu_bare (by decide) (by decide), by decide⟩
  inlets := fun y q x j h => absurd h iu_no_inlet
  wired := fun p k x j y q _ h => absurd h.1 iu_no_conn
  outlets := fun p k e h => absurd h iu_no_conn
  inside := by
    rintro x j y q ⟨p, k, e, _, h, _⟩
    exact absurd h.1 iu_no_conn
  nested := ⟨fun _ => 0, fun y q x j h => absurd h iu_no_inlet⟩
  reads := by
    intro b hb hc who r Q hu hon i hi hno
    have hr := use_in hu
    rw [iu_on] at hon
    rcases iu_comb hb hc with rfl | rfl | rfl | rfl <;> simp [iuB1, iuB3, tkB2, tkB3, Deferred.stmt, readsOf] at hr <;>
      subst hr
    · simp [dsRef] at hon
    · exact iu_takes hu hi hno
    · simp [dsRef] at hon
    · simp [dsRef] at hon
  writes := by
    intro b hb hc y i ⟨w, hw, _, hy, _⟩ hon d hd
    rw [iu_on] at hon
    have := iu_wr (iu_comb hb hc) hw
    obtain rfl : y = 30 := by omega
    obtain rfl : d = (0, 7) := iu_driven (q := (ivVia 30 i).2) hd
    exact .inl ⟨rfl, fun e => List.mem_singleton.2 rfl⟩
  clocks := by
    intro x ds h b hb hc w hw
    simp [iuEvents] at h
    obtain rfl := iu_reg hb hc
    rw [iu_write hw]; simp only; omega

theorem iu_timed (cuts : CutReg) : TimedVia ivE iuEvents cuts ivVia where
  sync := by
    intro b hb hc
    obtain rfl := iu_reg hb hc
    refine .assign fun l r h => fits_same fun w hw _ => ?_
    rw [iu_write hw]
    cases h with
    | seg h1 h2 h3 => simp at h1; subst h1; simp at h2; subst h2; cases h3; rfl
  count := by
    intro b hb hc who r Q hu p hp
    obtain rfl := iu_reg hb hc
    have : ∀ x ∈ usesOf iuB2.stmt, x.2.bounds = ⟨0, 7⟩ := by decide
    rw [this _ (use_of hu)] at hp
    exact (eight.1 hp).1
  kept := by
    intro b hb hc w hw hon
    obtain rfl := iu_reg hb hc
    obtain rfl := iu_write hw
    refine ⟨⟨by decide, fun v hv _ => by rw [iu_write hv], fun b' h' who r Q hu _ => ?_⟩,
      ⟨by decide, iu_declares (by decide), ⟨[iuB1], [iuB3, tkB2, tkB3], rfl, ?_⟩,
        fun _ _ _ _ _ _ h => absurd h.1 iu_no_conn⟩⟩
    · have : ∀ b ∈ iuBs, ∀ x ∈ usesOf b.stmt, x.2.bounds = ⟨0, 7⟩ := by
        intro b hb; simp at hb; rcases hb with rfl | rfl | rfl | rfl | rfl <;> decide
      exact this b' h' _ (use_of hu)
    · intro b' hb' hc' v hv
      exact absurd hc' (iu_clear (by simpa using hb'))
  outs := by
    intro b hb x j y q hk h
    rcases h with ⟨h, _⟩ | ⟨_, _, _, h⟩
    · exact absurd hk.1 h
    · exact absurd h iu_no_up
  last := by
    intro b hb hc x p loc hl w hw hh
    refine .inl ?_
    obtain rfl := iu_reg hb hc
    have hn : nbaWrites true iuB2.stmt = [w] := by rw [iu_write hw]; decide
    rcases hl with ⟨pre, v', post, h1, _, h3, _⟩ | ⟨h, _⟩
    · rw [hn] at h1
      obtain ⟨_, rfl, _⟩ := single_split h1
      exact h3
    · exact absurd hh (h _ (by rw [hn]; simp))
  reads := by
    intro b hb hc who r Q hu hon i hi hno
    have hr := use_in hu
    obtain rfl := iu_reg hb hc
    simp [iuB2, Deferred.stmt, readsOf] at hr
    subst hr
    exact iu_takes hu hi hno
  writes := by
    intro b hb y i hk hon d hd
    obtain ⟨hc, w, hw, _, h1, _⟩ := hk
    obtain rfl := iu_reg hb hc
    obtain rfl := iu_write hw
    rw [iu_on] at hon
    simp only at h1
    omega

theorem iu_cuts : iuCol.cuts = fun _ => none := by
  obtain ⟨c, a1, a2, _⟩ := walked iu_elab
  have hcc : iuCol = c := Except.ok.inj (iu_phase1.symm.trans a1)
  rw [hcc]
  refine steps_uncut _ (fine_start ivE.D) ?_ a2.run
  intro ev hev
  refine ⟨iu_elab.ok ev hev, ?_⟩
  rw [iu_events] at hev
  simp [iuEvents] at hev
  rcases hev with rfl | rfl | rfl | rfl | rfl | rfl | rfl | rfl | rfl | rfl <;> simp

theorem iu_env : (⟨ivE, iuCol.synCuts ivE, fun _ => false⟩ : SynEnv) = ⟨ivE, fun _ => none, fun _ => false⟩ := by
  rw [Col.synCuts, iu_cuts]
  simp

theorem iu_text (b : Deferred) (hb : b ∈ iuBs) :
    elabBlock ⟨ivE, fun _ => none, fun _ => false⟩ spot (iuText b) = .ok b ∧
    elabBlock ⟨ivE, fun _ => none, fun _ => false⟩ atLoc (moveTextBlock id (iuText b)) = .ok b := by
  simp at hb
  rcases hb with rfl | rfl | rfl | rfl | rfl <;> exact ⟨rfl, rfl⟩

theorem iu_seen : seenAll ⟨ivE, iuCol.synCuts ivE, fun _ => false⟩ spot iuSrc = iuTop := by
  rw [iu_env]
  simp [seenAll, iuSrc, iuTop, withBlocks, withBlock, seen, iu_text]

theorem iu_seen_at : seenAll ⟨ivE, iuCol.synCuts ivE, fun _ => false⟩ atLoc (moveDesign id iuSrc) = iuTop := by
  rw [iu_env]
  simp [seenAll, moveDesign, iuSrc, iuTop, withBlocks, withBlock, seen, iu_text]

theorem iu_blocks : blocksOf (eventsAll hdBoxed ivE.opts.propCuts iuSrc.tree) = iuBs := by
  rw [show iuSrc.tree = iuTop from rfl, iu_events, iu_all_blocks]

theorem iu_net : netlistOf ivE (fun _ => false) atLoc Tracker.slots (moveDesign id iuSrc) = .ok iuNet := by
  have h : (netlistOf ivE (fun _ => false) atLoc Tracker.slots (moveDesign id iuSrc)).toOption.isSome = true := by
    decide +kernel
  rw [iuNet]
  generalize netlistOf ivE (fun _ => false) atLoc Tracker.slots (moveDesign id iuSrc) = r at h
  cases r with
  | error e => cases h
  | ok net => rfl

theorem iu_loops : combLoops iuNet = [] := by decide +kernel

/-- What the lines compute. -/
def iuM : Sense Bool where
  bit := fun b => b == .one
  value := fun loc ρ k => if loc.line = 1 then ρ 0 k else if loc.line = 4 then ρ 2 k else if loc.line = 5 then ρ 3 k else
    ρ 31 k
  pick := fun _ _ _ _ => false
  feed := fun _ _ _ => false

theorem iu_suits {S : SynEnv} {n y z : Nat} {b : Bool} (h : ∀ ρ k, iuM.value (tkAt n) ρ k = ρ z k) :
    Suits iuM S (.assign b (tcAsg n y z)) := by
  refine ⟨⟨rfl, rfl, (tx_whole y).2.2 _, (tx_whole z).2.2 _, rfl, (tx_whole y).1, (tx_whole y).2.1,
    fun _ _ => (tx_whole z).2.1⟩, ?_⟩
  refine .inl ⟨rfl, rfl, z, rfl, fun ρ k _ => ?_⟩
  rw [Nat.zero_add]
  exact h ρ k

theorem iu_all {S : SynEnv} (b : Deferred) (hb : b ∈ iuBs) : Suits iuM S (SDeferred.stmt (iuText b)) := by
  simp at hb
  rcases hb with rfl | rfl | rfl | rfl | rfl
  · exact iu_suits (b := true) (n := 1) (z := 0) fun _ _ => rfl
  · exact iu_suits (b := false) (n := 2) (z := 31) fun _ _ => rfl
  · exact iu_suits (b := true) (n := 3) (z := 31) fun _ _ => rfl
  · exact iu_suits (b := true) (n := 4) (z := 2) fun _ _ => rfl
  · exact iu_suits (b := true) (n := 5) (z := 3) fun _ _ => rfl

theorem iu_no_wire {x j : Nat} {k : Conn} {e : SExpr} : ¬ Wired iuEvents x j k e := by
  rintro ⟨p, _, h, _⟩
  exact iu_no_conn h

theorem iu_faithful {S : SynEnv} : TextFaithful iuM S iuText iuBs iuEvents where
  blocks := fun b hb _ => iu_all b hb
  inlets := fun _ _ _ _ h => absurd h iu_no_wire

theorem iu_edge {b : Deferred} (hb : b ∈ iuBs) : TextClocked (iuText b) ↔ b = iuB2 := by
  rw [← elabBlock_clocked (iu_text b hb).1]
  constructor
  · exact fun h => iu_reg (by rw [iu_all_blocks]; exact hb) h
  · rintro rfl; exact iu_clocked

theorem iu_free {b : Deferred} (hb : b = iuB1 ∨ b = iuB3 ∨ b = tkB2 ∨ b = tkB3) : ¬ TextClocked (iuSrc.text b) := by
  intro h
  rcases hb with rfl | rfl | rfl | rfl <;> exact h

/-- The values when `a` is always `v` and `c` is 1: the interface and `u` are `v`, and `q` and `y` are `v` from time 1
on. -/
def iuVals (v : Bool) (t : Nat) : Vals Bool := fun x p =>
  decide (0 ≤ p ∧ p ≤ 7) && if x = 1 ∨ x = 2 then v && decide (1 ≤ t) else
    if x = 0 ∨ x = 6 ∨ 30 ≤ x ∧ x ≤ 32 then v else decide (x = 3 ∨ x = 4)

theorem iu_shared (v : Bool) (t : Nat) : Shared ivE iuEvents ivVia (iuVals v t) := by
  intro y i h
  rcases iu_on.1 h with rfl | rfl | rfl <;> rfl

theorem iu_solves (v : Bool) (t : Nat) : TextSolves iuM ivE iuText iuBs iuEvents (iuVals v t) where
  blocks := by
    intro b hb hc x p ha
    have hne : b ≠ iuB2 := fun h => hc ((iu_edge hb).2 h)
    simp at hb
    rcases hb with rfl | rfl | rfl | rfl | rfl
    · obtain ⟨rfl, hp⟩ := tc_bits ha.2
      show _ = putBits (iuM.value (tkAt 1)) (hdWhole 30) (iuVals v t) 30 p
      rw [(tc_put (ν := iuVals v t) hp).1]
      simp [iuM, tkAt, iuVals, hp]
      omega
    · exact absurd rfl hne
    · obtain ⟨rfl, hp⟩ := tc_bits ha.2
      show _ = putBits (iuM.value (tkAt 3)) (hdWhole 6) (iuVals v t) 6 p
      rw [(tc_put (ν := iuVals v t) hp).1]
      simp [iuM, tkAt, iuVals, hp]
      omega
    · obtain ⟨rfl, hp⟩ := tc_bits ha.2
      show _ = putBits (iuM.value (tkAt 4)) (hdWhole 1) (iuVals v t) 1 p
      rw [(tc_put (ν := iuVals v t) hp).1]
      simp [iuM, tkAt, iuVals, hp]
      omega
    · obtain ⟨rfl, hp⟩ := tc_bits ha.2
      show _ = putBits (iuM.value (tkAt 5)) (hdWhole 4) (iuVals v t) 4 p
      rw [(tc_put (ν := iuVals v t) hp).1]
      simp [iuM, tkAt, iuVals, hp]
      omega
  inlets := fun _ _ _ _ h => absurd h iu_no_wire
  outlets := by
    rintro x j y q ⟨p, k, e, _, h, _⟩
    exact absurd h.1 iu_no_conn

theorem iu_kept {b : Deferred} (hb : b ∈ iuBs) {x j : Nat} (h : TextKept (iuText b) x j) :
    b = iuB2 ∧ x = 2 ∧ j ≤ 7 := by
  obtain rfl := (iu_edge hb).1 h.1
  obtain ⟨rfl, hp⟩ := tc_bits h.2.2
  exact ⟨rfl, rfl, by omega⟩

theorem iu_unrolls (v : Bool) : TextUnrolls iuM ivE iuText iuBs iuEvents (fun _ _ => true) (iuVals v) where
  stable := iu_solves v
  step := by
    intro t b hb x j hk
    obtain ⟨rfl, rfl, hj⟩ := iu_kept hb hk
    have h3 : (0 : Int) ≤ j ∧ (j : Int) ≤ 7 := by omega
    have hl : laterText iuM (SDeferred.stmt (iuText iuB2)) (fun _ => true) (iuVals v t) (iuVals v t) 2 j = v := by
      show putInto (iuM.value (tkAt 2)) (hdWhole 2) (iuVals v t) (iuVals v t) 2 j = v
      rw [(tc_put h3).2]
      simp [iuM, tkAt, iuVals, h3]
    rw [hl]
    simp [iuVals, h3]

theorem iu_init : ∀ b ∈ iuBs, ∀ x j, TextKept (iuText b) x j → iuVals false 0 x j = iuVals true 0 x j := by
  intro b hb x j hk
  obtain ⟨rfl, rfl, hj⟩ := iu_kept hb hk
  simp [iuVals]

theorem iu_marks : ((iuBs : List Deferred).flatMap fun b => marksOf (SDeferred.stmt (iuText b))).Nodup := by
  decide

/-- The wire `u` differs between the states, so there is a path through the interface. -/
example := text_via_partial (M := iuM) (E := ivE) (auto := fun _ => false) (fun _ => rfl) (boxed := hdBoxed)
    (src := iuSrc) (f := id) iu_phase1 iu_net (by rw [iu_seen_at]; exact iu_build) (by rw [iu_blocks]; exact iu_marks)
    iu_loops (via := ivVia) (by rw [iu_seen, iu_events]; exact iu_regular _)
    (by rw [iu_seen, iu_events, iu_blocks]; exact iu_faithful) (σ := iuVals false 0) (σ' := iuVals true 0)
    (by rw [iu_seen, iu_events, iu_blocks]; exact iu_solves false 0)
    (by rw [iu_seen, iu_events, iu_blocks]; exact iu_solves true 0)
    (by rw [iu_seen, iu_events]; exact iu_shared false 0) (by rw [iu_seen, iu_events]; exact iu_shared true 0)
    (b := iuB3) (by rw [iu_blocks]; simp) (iu_free (by simp)) (x := 6) (j := 0) ⟨rfl, 0, by decide, by decide⟩
    (by decide)

/-- Output `y` differs at time 1, so there is a path to its assignment, through the interface and the register. -/
example := text_over_time_via_partial (M := iuM) (E := ivE) (auto := fun _ => false) (fun _ => rfl) (boxed := hdBoxed)
    (src := iuSrc) (f := id) iu_phase1 iu_net (by rw [iu_seen_at]; exact iu_build) (by rw [iu_blocks]; exact iu_marks)
    iu_loops (via := ivVia) (by rw [iu_seen, iu_events]; exact iu_regular _)
    (by rw [iu_seen, iu_events]; exact iu_timed _)
    (by rw [iu_seen, iu_events, iu_blocks]; exact iu_faithful) (by rw [iu_blocks]; exact fun b hb _ => iu_all b hb)
    (fire := fun _ _ => true) (by rw [iu_seen, iu_events, iu_blocks]; exact iu_unrolls false)
    (by rw [iu_seen, iu_events, iu_blocks]; exact iu_unrolls true)
    (by rw [iu_seen, iu_events]; exact iu_shared false) (by rw [iu_seen, iu_events]; exact iu_shared true)
    (by rw [iu_blocks]; exact iu_init) (b := tkB2) (by rw [iu_blocks]; simp) (x := 1) (j := 0) (t := 1)
    (.inr ⟨iu_free (by simp), rfl, 0, by decide, by decide⟩) (by decide)

/-- What differs and comes from outside, apart from the register, are bits of port `a`. -/
theorem iu_sources {s q t : Nat} {cuts : CutReg} (h : OuterSource ivE iuEvents cuts ivVia s q) (hs : s ≠ 2)
    (hne : iuVals false t s q ≠ iuVals true t s q) : s = 0 ∧ q ≤ 7 := by
  have h0 : (s = 0 ∨ s = 1 ∨ s = 2 ∨ s = 6 ∨ s = 30 ∨ s = 31 ∨ s = 32) ∧ q ≤ 7 := by
    refine Classical.byContradiction fun hc => hne ?_
    unfold iuVals
    by_cases h1 : s = 0 ∨ s = 1 ∨ s = 2 ∨ s = 6 ∨ s = 30 ∨ s = 31 ∨ s = 32
    · rw [decide_eq_false (by omega : ¬ (0 ≤ (q : Int) ∧ (q : Int) ≤ 7))]
      rfl
    · rw [if_neg (by omega), if_neg (by omega), if_neg (by omega), if_neg (by omega)]
  obtain ⟨⟨h1, _⟩, h2⟩ := h
  have g1 : s ≠ 1 := by
    rintro rfl
    exact h1 (iu_assigns (b := tkB2) (loc := tkAt 4) (by rw [iu_all_blocks]; simp) (iu_clear (by simp)) (by decide) h0.2)
  have g6 : s ≠ 6 := by
    rintro rfl
    exact h1 (iu_assigns (b := iuB3) (loc := tkAt 3) (by rw [iu_all_blocks]; simp) (iu_clear (by simp)) (by decide) h0.2)
  have g3 : ¬ (s = 30 ∨ s = 31 ∨ s = 32) := by
    intro hs
    refine h2 (iu_on.2 hs) 30 q (iu_on.2 (.inl rfl)) ?_
      (iu_assigns (b := iuB1) (loc := tkAt 1) (by rw [iu_all_blocks]; simp) (iu_clear (by simp)) (by decide) h0.2)
    rcases hs with rfl | rfl | rfl <;> rfl
  omega

theorem iu_supply {s q : Nat} (h : s = 0 ∧ q ≤ 7) :
    Bare iuEvents s ∧ ivE.D.kind s ≠ .modportPort ∧ ∃ p, LastSupply iuEvents s q p := by
  obtain ⟨rfl, hq⟩ := h
  refine ⟨iu_bare (by decide) (by decide), by decide, hdIn 20 0, [], _, rfl,
    ⟨rfl, ⟨0, 7, true⟩, by simp [hdIn], rfl, by simp, hq⟩, ?_⟩
  intro p hp hs
  simp at hp
  rcases hp with rfl | rfl | rfl <;> simp [Supplies, hdIn, hdOut] at hs

theorem iu_held {q : Nat} {cuts : CutReg} (hq : q ≤ 7) : HeldVia ivE iuEvents cuts ivVia 2 q :=
  .inl ⟨iuB2, by rw [iu_all_blocks]; simp, 2, q,
    ⟨iu_clocked, ⟨2, ⟨0, 7⟩, tkAt 2, false⟩, by decide, rfl, rfl, eight.2 (by omega)⟩, .inl ⟨rfl, rfl⟩⟩

theorem iu_in {s q : Nat} {p : PortDecl} (h : LastSupply iuEvents s q p) (hs : s ≠ 3) : s = 0 ∧ p = hdIn 20 0 := by
  obtain ⟨pre, post, h1, h2, _⟩ := h
  have hm : Event.port p ∈ iuEvents := h1 ▸ by simp
  simp [iuEvents] at hm
  obtain ⟨a1, d, a2, a3, _⟩ := h2
  rcases hm with rfl | rfl | rfl | rfl <;> simp [hdIn, hdOut] at a1 a2 <;> subst a2
  · exact ⟨a1.symm, rfl⟩
  · omega
  · cases a3
  · cases a3

theorem iu_spans : Spans ivE iuCol.cuts (hdOut 23 4) 4 0 7 := by
  refine ⟨rfl, by decide, ⟨⟨0, 7, false⟩, by simp [hdOut], by decide, by decide⟩, fun _ l hl => ?_⟩
  rw [iu_cuts] at hl
  cases hl

theorem iu_narrow : ∀ w ∈ allWrites (seen ⟨ivE, iuCol.synCuts ivE, fun _ => false⟩ spot iuSrc.text tkB3).stmt, w.sym = 4 →
    InRng w.bounds (0 : Nat) → 0 ≤ w.bounds.lower ∧ w.bounds.upper ≤ 7 := by
  rw [iu_env]
  simp only [seen, show iuSrc.text = iuText from rfl, (iu_text tkB3 (by simp)).1]
  intro w hw _ _; simp [tkB3, Deferred.stmt, allWrites, asgWrites, dsRef] at hw; subst hw; decide

theorem iu_apart {q n m : Nat} (h3 : PortNode ivE.D iuNet (hdIn 20 0) q n) (h4 : PortNode ivE.D iuNet (hdOut 23 4) 0 m) :
    findPath iuNet n m = some [] ∧ findComb iuNet n m = some [] := by
  obtain ⟨n1, x, b, hx, _, n2⟩ := h3
  obtain ⟨m1, y, b', hy, _, m2⟩ := h4
  cases hx; cases hy
  exact (by decide +kernel : ∀ n ∈ iuNet.g.nodes, ∀ m ∈ iuNet.g.nodes,
    portName (iuNet.data n) = some ['a'] → portName (iuNet.data m) = some ['e'] →
      findPath iuNet n m = some [] ∧ findComb iuNet n m = some [])
    n n1 m m1 (by rw [n2]; rfl) (by rw [m2]; rfl)

/-- There is no path from port `a` to port `w`, so `w` is the same in both states. -/
example : iuVals false 0 4 0 = iuVals true 0 4 0 :=
  text_same_via_partial (M := iuM) (E := ivE) (auto := fun _ => false) (fun _ => rfl) (boxed := hdBoxed)
    (src := iuSrc) (f := id) iu_phase1 iu_net (by rw [iu_seen_at]; exact iu_build) (by rw [iu_blocks]; exact iu_marks)
    iu_loops (via := ivVia) (by rw [iu_seen, iu_events]; exact iu_regular _)
    (by rw [iu_seen, iu_events, iu_blocks]; exact iu_faithful) (σ := iuVals false 0) (σ' := iuVals true 0)
    (by rw [iu_seen, iu_events, iu_blocks]; exact iu_solves false 0)
    (by rw [iu_seen, iu_events, iu_blocks]; exact iu_solves true 0)
    (by rw [iu_seen, iu_events]; exact iu_shared false 0) (by rw [iu_seen, iu_events]; exact iu_shared true 0)
    (by
      rw [iu_seen, iu_events]
      exact fun s q h _ hne => iu_supply (iu_sources h (by rintro rfl; simp [iuVals] at hne) hne))
    (b := tkB3) (by rw [iu_blocks]; simp) (iu_free (by simp)) (x := 4) (j := 0) ⟨rfl, 0, by decide, by decide⟩
    (p := hdOut 23 4) (by rw [iu_seen, iu_events]; simp [iuEvents]) rfl (lo := 0) (hi := 7) iu_spans iu_narrow
    (by
      rw [iu_seen, iu_events]
      intro s q n m p' h1 h2 h3 h4
      obtain ⟨rfl, rfl⟩ := iu_in h1 (by rintro rfl; exact h2 rfl)
      exact (iu_apart h3 h4).2)

/-- Nor does it ever differ. -/
example (t : Nat) : iuVals false t 4 0 = iuVals true t 4 0 :=
  text_forever_via_partial (M := iuM) (E := ivE) (auto := fun _ => false) (fun _ => rfl) (boxed := hdBoxed)
    (src := iuSrc) (f := id) iu_phase1 iu_net (by rw [iu_seen_at]; exact iu_build) (by rw [iu_blocks]; exact iu_marks)
    iu_loops (via := ivVia) (by rw [iu_seen, iu_events]; exact iu_regular _)
    (by rw [iu_seen, iu_events]; exact iu_timed _)
    (by rw [iu_seen, iu_events, iu_blocks]; exact iu_faithful) (by rw [iu_blocks]; exact fun b hb _ => iu_all b hb)
    (fire := fun _ _ => true) (σ := iuVals false) (σ' := iuVals true)
    (by rw [iu_seen, iu_events, iu_blocks]; exact iu_unrolls false)
    (by rw [iu_seen, iu_events, iu_blocks]; exact iu_unrolls true)
    (by rw [iu_seen, iu_events]; exact iu_shared false) (by rw [iu_seen, iu_events]; exact iu_shared true)
    (by rw [iu_blocks]; exact iu_init)
    (by
      rw [iu_seen, iu_events]
      intro t s q h hh _ hne
      refine iu_supply (iu_sources h ?_ hne)
      rintro rfl
      refine hh (iu_held (Classical.byContradiction fun hc => hne ?_))
      unfold iuVals
      rw [decide_eq_false (by omega : ¬ (0 ≤ (q : Int) ∧ (q : Int) ≤ 7))]
      rfl)
    (b := tkB3) (by rw [iu_blocks]; simp) (x := 4) (j := 0)
    (.inr ⟨iu_free (by simp), rfl, 0, by decide, by decide⟩) (p := hdOut 23 4)
    (by rw [iu_seen, iu_events]; simp [iuEvents]) rfl (lo := 0) (hi' := 7) iu_spans iu_narrow
    (by
      rw [iu_seen, iu_events]
      intro t s q n m p' h1 h2 h3 h4
      obtain ⟨rfl, rfl⟩ := iu_in h1 (by rintro rfl; exact h2 rfl)
      exact ⟨by decide, (iu_apart h3 h4).1⟩) t

end Verif.Props

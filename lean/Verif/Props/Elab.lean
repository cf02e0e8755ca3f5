import Verif.Proofs.TextClock
import Verif.Props.Influence

/-! C72: without a path there is no influence, from the text of the design. -/
namespace Verif.Props
open Verif.Model Verif.Spec Verif.Proofs

theorem wired_of_inlet {E : TravEnv} {es : List Event} {y q x j : Nat} (h : Inlet E es y q x j) :
    ∃ k e, Wired es x j k e := by
  obtain ⟨p, k, h1, ⟨h2, _, h4, e, h5, _⟩, h6⟩ := h
  exact ⟨k, e, p, h1, h2, h6, h4, h5⟩

/-- The value of a bit inside an instance looks at the bits it is tied to. -/
theorem feed_looks {V : Type} {M : Sense V} {E : TravEnv} {es : List Event} (hok : ∀ ev ∈ es, EventOk E.D ev)
    {x j : Nat} {k : Conn} {e : SExpr} (h : Wired es x j k e) (hs : Simple E.opts E.D k) (hj : j < e.width)
    {G : Vals V → Nat → V} (hd : Denotes M.bit e G) (hG : ∀ ρ, M.feed x j ρ = G ρ j) :
    LooksAt (fun y p => ∃ q : Nat, p = q ∧ Inlet E es y q x j) (M.feed x j) := by
  obtain ⟨p, h1, h2, h3, ⟨i, h4⟩, h5⟩ := h
  have hwt : WT (fun _ => none) e := by
    obtain ⟨l1, l2, l3, rfl⟩ := h2
    exact (hok (.connect k) (by simp)).2 e h5
  refine looks_eq (G := fun ρ => G ρ j) ?_ fun ρ => hG ρ
  by_cases hb : BitWise E.opts E.D k p.sym e
  · refine looks_mono (denotes_routes _ e hwt (hs _ _ _ h4 h5 hb).1 G hd j hj) ?_
    rintro y b ⟨q, rfl, hr⟩
    exact ⟨q, rfl, p, k, h1, ⟨h2, hs, ⟨i, h4⟩, e, h5, .inl ⟨hb, hr⟩⟩, h3⟩
  · refine looks_mono (denotes_paths _ e hwt G hd j hj) ?_
    rintro y b ⟨q, rfl, hr⟩
    exact ⟨q, rfl, p, k, h1, ⟨h2, hs, ⟨i, h4⟩, e, h5, .inr ⟨hb, hr⟩⟩, h3⟩

/-- The text of the design gives a meaning to what the analysis sees of it, also of edge-triggered blocks. -/
theorem text_meaning_all {V : Type} {M : Sense V} {S : SynEnv} {boxed : Str → Str → Bool} {src : SrcDesign}
    (hc : CutsOk S.cuts) (hauto : ∀ x, S.auto x = false)
    (hok : ∀ ev ∈ eventsAll boxed S.T.opts.propCuts (seenAll S spot src), EventOk S.T.D ev)
    (hel : ∀ b ∈ blocksOf (eventsAll boxed S.T.opts.propCuts src.tree),
      elabBlock S spot (src.text b) = .ok (seen S spot src.text b))
    (hmarks : ((blocksOf (eventsAll boxed S.T.opts.propCuts src.tree)).flatMap
      fun b => marksOf (SDeferred.stmt (src.text b))).Nodup)
    (hf : TextFaithful M S src.text (blocksOf (eventsAll boxed S.T.opts.propCuts src.tree))
      (eventsAll boxed S.T.opts.propCuts (seenAll S spot src))) :
    ∃ M' : Meaning V, Faithful M' S.T (eventsAll boxed S.T.opts.propCuts (seenAll S spot src)) ∧
      (∀ σ, TextSolves M S.T src.text (blocksOf (eventsAll boxed S.T.opts.propCuts src.tree))
        (eventsAll boxed S.T.opts.propCuts (seenAll S spot src)) σ →
        Solves M' S.T (eventsAll boxed S.T.opts.propCuts (seenAll S spot src)) σ) ∧
      (∀ b ∈ blocksOf (eventsAll boxed S.T.opts.propCuts src.tree), ¬ TextClocked (src.text b) →
        ∀ y p, (∃ w ∈ allWrites (seen S spot src.text b).stmt, Hits true y p w) ↔
          Assigns (SDeferred.stmt (src.text b)) y p) ∧
      ∀ b ∈ blocksOf (eventsAll boxed S.T.opts.propCuts src.tree), Suits M S (SDeferred.stmt (src.text b)) →
        Reflects M' (seen S spot src.text b).stmt ∧
        (∀ sel ρ ν, later M' (seen S spot src.text b).stmt sel ρ ν = laterText M (SDeferred.stmt (src.text b)) sel ρ ν) ∧
        ∀ y p, (∃ w ∈ allWrites (seen S spot src.text b).stmt, Hits false y p w) ↔
          Schedules (SDeferred.stmt (src.text b)) y p := by
  let es := eventsAll boxed S.T.opts.propCuts (seenAll S spot src)
  let bs := blocksOf (eventsAll boxed S.T.opts.propCuts src.tree)
  have hbs : blocksOf es = bs.map (seen S spot src.text) := by
    show blocksOf (eventsAll boxed S.T.opts.propCuts (seenAll S spot src)) = _
    rw [seenAll, eventsAll_swap, blocksOf_swap]
  have hnd : ((bs.flatMap fun b => asgsOf (SDeferred.stmt (src.text b))).map (·.loc)).Nodup := by
    refine List.Sublist.nodup ?_ hmarks
    rw [List.map_flatMap]
    have : ∀ l : List Deferred, (l.flatMap fun b => (asgsOf (SDeferred.stmt (src.text b))).map (·.loc)).Sublist
        (l.flatMap fun b => marksOf (SDeferred.stmt (src.text b))) := by
      intro l
      induction l with
      | nil => exact List.Sublist.refl _
      | cons b l ih => simp only [List.flatMap_cons]; exact (asgs_marks _).append ih
    exact this bs
  classical
  obtain ⟨M', m1, m2, m3⟩ := meaning_exists S M
    (fun x j ρ => if ∃ k e, Wired es x j k e then M.feed x j ρ else M.bit .zero) hnd
  have key : ∀ b ∈ bs, ¬ TextClocked (src.text b) →
      (∀ sel ρ, run M' (seen S spot src.text b).stmt sel ρ = runText M (SDeferred.stmt (src.text b)) sel ρ) ∧
      Reflects M' (seen S spot src.text b).stmt ∧
      ∀ y p, (∃ w ∈ allWrites (seen S spot src.text b).stmt, Hits true y p w) ↔
        Assigns (SDeferred.stmt (src.text b)) y p := by
    intro b hb hk
    exact stmt_seen hc hauto m1 (hf.blocks b hb hk) (fun a ha => m2 a (List.mem_flatMap.2 ⟨b, hb, ha⟩))
      (elabBlock_stmt (hel b hb))
  refine ⟨M', ⟨fun b' hb' hk => ?_, fun x j => ?_⟩, fun σ hs => ⟨fun b' hb' hk x p hw => ?_, fun y q x j hi => ?_,
    hs.outlets⟩, fun b hb hk => (key b hb hk).2.2, fun b hb hsu =>
      ⟨(stmt_seen hc hauto m1 hsu (fun a ha => m2 a (List.mem_flatMap.2 ⟨b, hb, ha⟩)) (elabBlock_stmt (hel b hb))).2.1,
        stmt_later hc hauto m1 hsu (fun a ha => m2 a (List.mem_flatMap.2 ⟨b, hb, ha⟩)) (elabBlock_stmt (hel b hb))⟩⟩
  · change b' ∈ blocksOf es at hb'
    rw [hbs] at hb'
    obtain ⟨b, hb, rfl⟩ := List.mem_map.1 hb'
    exact (key b hb fun ht => hk ((elabBlock_clocked (hel b hb)).2 ht)).2.1
  · rw [m3]
    by_cases hw : ∃ k e, Wired es x j k e
    · obtain ⟨k, e, hw'⟩ := hw
      obtain ⟨g1, g2, G, g3, g4⟩ := hf.inlets x j k e hw'
      refine looks_eq (G := M.feed x j) (feed_looks hok hw' g1 g2 g3 g4) fun ρ => ?_
      exact if_pos ⟨k, e, hw'⟩
    · refine looks_eq (G := fun _ => M.bit .zero) (looks_const _ _) fun ρ => ?_
      exact if_neg hw
  · change b' ∈ blocksOf es at hb'
    rw [hbs] at hb'
    obtain ⟨b, hb, rfl⟩ := List.mem_map.1 hb'
    have ht : ¬ TextClocked (src.text b) := fun ht => hk ((elabBlock_clocked (hel b hb)).2 ht)
    obtain ⟨k1, _, k3⟩ := key b hb ht
    rw [k1]
    exact hs.blocks b hb ht x p ((k3 x p).1 hw)
  · obtain ⟨k, e, hw⟩ := wired_of_inlet hi
    rw [m3]
    simp only
    rw [if_pos ⟨k, e, hw⟩]
    exact hs.inlets x j k e hw

/-- The text of the design gives a meaning to what the analysis sees of it. -/
theorem text_meaning {V : Type} {M : Sense V} {S : SynEnv} {boxed : Str → Str → Bool} {src : SrcDesign}
    (hc : CutsOk S.cuts) (hauto : ∀ x, S.auto x = false)
    (hok : ∀ ev ∈ eventsAll boxed S.T.opts.propCuts (seenAll S spot src), EventOk S.T.D ev)
    (hel : ∀ b ∈ blocksOf (eventsAll boxed S.T.opts.propCuts src.tree),
      elabBlock S spot (src.text b) = .ok (seen S spot src.text b))
    (hmarks : ((blocksOf (eventsAll boxed S.T.opts.propCuts src.tree)).flatMap
      fun b => marksOf (SDeferred.stmt (src.text b))).Nodup)
    (hf : TextFaithful M S src.text (blocksOf (eventsAll boxed S.T.opts.propCuts src.tree))
      (eventsAll boxed S.T.opts.propCuts (seenAll S spot src))) :
    ∃ M' : Meaning V, Faithful M' S.T (eventsAll boxed S.T.opts.propCuts (seenAll S spot src)) ∧
      (∀ σ, TextSolves M S.T src.text (blocksOf (eventsAll boxed S.T.opts.propCuts src.tree))
        (eventsAll boxed S.T.opts.propCuts (seenAll S spot src)) σ →
        Solves M' S.T (eventsAll boxed S.T.opts.propCuts (seenAll S spot src)) σ) ∧
      ∀ b ∈ blocksOf (eventsAll boxed S.T.opts.propCuts src.tree), ¬ TextClocked (src.text b) →
        ∀ y p, (∃ w ∈ allWrites (seen S spot src.text b).stmt, Hits true y p w) ↔
          Assigns (SDeferred.stmt (src.text b)) y p := by
  obtain ⟨M', m1, m2, m3, _⟩ := text_meaning_all hc hauto hok hel hmarks hf
  exact ⟨M', m1, m2, m3⟩

theorem with_ok {D : Design} (g : Deferred → Deferred) (ev : Event) : EventOk D (withEvent g ev) ↔ EventOk D ev := by
  cases ev <;> exact Iff.rfl

theorem with_declares (g : Deferred → Deferred) (ev : Event) : declares (withEvent g ev) = declares ev := by
  cases ev <;> rfl

theorem elaborated_with {E : TravEnv} {boxed : Str → Str → Bool} {g : Deferred → Deferred} {top : List Member}
    (h : Elaborated E boxed (withBlocks g top)) : Elaborated E boxed top := by
  refine ⟨h.boxes, fun ev hev => ?_, ?_⟩
  · refine (with_ok g ev).1 (h.ok _ ?_)
    rw [eventsAll_swap]
    exact List.mem_map.2 ⟨ev, hev, rfl⟩
  · have := h.once
    rw [eventsAll_swap, List.flatMap_map] at this
    simpa only [with_declares] using this

/-- What is known of a build from a text: the blocks have been seen, and the design seen with spots is a
marked design. -/
theorem text_built {E : TravEnv} {auto : Nat → Bool} {boxed : Str → Str → Bool} {ord : Tracker → List (Nat × Nat)}
    {src : SrcDesign} {f : TextLoc → TextLoc} {c : Col} {net : NetGraph} (hc : phase1 E src.tree = .ok c)
    (hn : netlistOf E auto atLoc ord (moveDesign f src) = .ok net)
    (hb : Buildable E boxed ord (seenAll ⟨E, c.synCuts E, auto⟩ atLoc (moveDesign f src)))
    (hmarks : ((blocksOf (eventsAll boxed E.opts.propCuts src.tree)).flatMap
      fun b => marksOf (SDeferred.stmt (src.text b))).Nodup) :
    ∃ c', phase1 E (seenAll ⟨E, c.synCuts E, auto⟩ atLoc (moveDesign f src)) = .ok c' ∧ c'.cuts = c.cuts ∧
      netlist E ord (seenAll ⟨E, c.synCuts E, auto⟩ atLoc (moveDesign f src)) = .ok net ∧
      Marked boxed E.opts.propCuts (f ∘ unspot) (seenAll ⟨E, c.synCuts E, auto⟩ spot src)
        (seenAll ⟨E, c.synCuts E, auto⟩ atLoc (moveDesign f src)) ∧
      CutsOk (c.synCuts E) ∧
      (∀ ev ∈ eventsAll boxed E.opts.propCuts (seenAll ⟨E, c.synCuts E, auto⟩ spot src), EventOk E.D ev) ∧
      ∀ b ∈ blocksOf (eventsAll boxed E.opts.propCuts src.tree),
        elabBlock ⟨E, c.synCuts E, auto⟩ spot (src.text b) =
          .ok (seen ⟨E, c.synCuts E, auto⟩ spot src.text b) := by
  obtain ⟨h1, h2⟩ := netlistOf_seen (src := moveDesign f src) hc hn
  have htree : Elaborated E boxed src.tree := elaborated_with hb.design
  obtain ⟨c2, a1, a2, a3⟩ := walked htree
  rw [hc] at a1
  cases a1
  have hcuts : CutsOk (c.synCuts E) := by
    unfold Col.synCuts
    split
    · exact a3.fine.cuts
    · intro x l h; cases h
  refine ⟨swapCol (seen ⟨E, c.synCuts E, auto⟩ atLoc (moveDesign f src).text) c, by rw [seenAll, swap_phase1]; simp only [moveDesign, hc, Except.map], rfl, h2,
    ⟨(seenAll_move _ f src).symm, seen_distinct hmarks⟩, hcuts, fun ev hev => ?_, fun b hbm => ?_⟩
  · rw [seenAll, eventsAll_swap] at hev
    obtain ⟨ev', hev', rfl⟩ := List.mem_map.1 hev
    exact (with_ok _ _).2 (htree.ok _ hev')
  · have hm : b ∈ c.blocks := by rw [a3.blocks]; exact hbm
    have := h1 b hm
    rw [moveDesign, block_text_move (f := f ∘ unspot) (pl := spot) (fun l i => by simp [unspot_spot])] at this
    cases he : elabBlock ⟨E, c.synCuts E, auto⟩ spot (src.text b) with
    | error e => rw [he] at this; cases this
    | ok b' => simp only [seen, he]

/-- A bit inside an instance that is connected to no bit of a signal has the same value in all stable
states. -/
theorem wired_constant {V : Type} {M : Sense V} {S : SynEnv} {text : Deferred → SDeferred} {bs : List Deferred}
    {es : List Event} (hok : ∀ ev ∈ es, EventOk S.T.D ev) (hf : TextFaithful M S text bs es) {σ σ' : Vals V}
    (hs : TextSolves M S.T text bs es σ) (hs' : TextSolves M S.T text bs es σ') {x j : Nat} {k : Conn} {e : SExpr}
    (hw : Wired es x j k e) (hno : ∀ y q, ¬ Inlet S.T es y q x j) : σ x j = σ' x j := by
  obtain ⟨g1, g2, G, g3, g4⟩ := hf.inlets x j k e hw
  rw [hs.inlets x j k e hw, hs'.inlets x j k e hw]
  refine feed_looks hok hw g1 g2 g3 g4 σ σ' ?_
  rintro y p ⟨q, _, hi⟩
  exact absurd hi (hno y q)

/-- C72. C71 for the text of a design: assignments have the values of their right sides, which follow the
expressions bit by bit. If the values of a bit that a block assigns differ between two stable states, so do
those of a source that no connection supplies, and a path without registers leads from a node that reads it
to the node of an assignment that can leave the bit its value. The text of the design is that of `src` with
its places changed by `f`; in `src` every assignment, conditional and case has a place of its own. Missing:
dynamic selects on the left or in assignments that are aligned (see `assign_bits_partial`), and designs
that are not regular (C71). -/
theorem text_influence_partial {V : Type} {M : Sense V} {E : TravEnv} {auto : Nat → Bool}
    (hauto : ∀ x, auto x = false) {boxed : Str → Str → Bool} {ord : Tracker → List (Nat × Nat)} {src : SrcDesign}
    {f : TextLoc → TextLoc} {c : Col} {net : NetGraph} (hc : phase1 E src.tree = .ok c)
    (hn : netlistOf E auto atLoc ord (moveDesign f src) = .ok net)
    (hb : Buildable E boxed ord (seenAll ⟨E, c.synCuts E, auto⟩ atLoc (moveDesign f src)))
    (hmarks : ((blocksOf (eventsAll boxed E.opts.propCuts src.tree)).flatMap
      fun b => marksOf (SDeferred.stmt (src.text b))).Nodup)
    (hl : combLoops net = [])
    (hr : Regular E (eventsAll boxed E.opts.propCuts (seenAll ⟨E, c.synCuts E, auto⟩ spot src)) c.cuts)
    (hf : TextFaithful M ⟨E, c.synCuts E, auto⟩ src.text (blocksOf (eventsAll boxed E.opts.propCuts src.tree))
      (eventsAll boxed E.opts.propCuts (seenAll ⟨E, c.synCuts E, auto⟩ spot src))) {σ σ' : Vals V}
    (hs : TextSolves M E src.text (blocksOf (eventsAll boxed E.opts.propCuts src.tree))
      (eventsAll boxed E.opts.propCuts (seenAll ⟨E, c.synCuts E, auto⟩ spot src)) σ)
    (hs' : TextSolves M E src.text (blocksOf (eventsAll boxed E.opts.propCuts src.tree))
      (eventsAll boxed E.opts.propCuts (seenAll ⟨E, c.synCuts E, auto⟩ spot src)) σ')
    {b : Deferred} (hbm : b ∈ blocksOf (eventsAll boxed E.opts.propCuts src.tree)) (hk : ¬ TextClocked (src.text b))
    {x j : Nat} (hw : Assigns (SDeferred.stmt (src.text b)) x j) (hne : σ x j ≠ σ' x j) :
    ∃ net', netlist E ord (seenAll ⟨E, c.synCuts E, auto⟩ spot src) = .ok net' ∧ net = moveNet (f ∘ unspot) net' ∧
      ∃ loc, Leaves (seen ⟨E, c.synCuts E, auto⟩ spot src.text b).stmt x j loc ∧ ∃ s q z i who,
      Source E (eventsAll boxed E.opts.propCuts (seenAll ⟨E, c.synCuts E, auto⟩ spot src)) c.cuts s q ∧
      (∀ k e, ¬ Wired (eventsAll boxed E.opts.propCuts (seenAll ⟨E, c.synCuts E, auto⟩ spot src)) s q k e) ∧
      σ s q ≠ σ' s q ∧
      Brings E (eventsAll boxed E.opts.propCuts (seenAll ⟨E, c.synCuts E, auto⟩ spot src)) s q z i ∧
      Fetches (eventsAll boxed E.opts.propCuts (seenAll ⟨E, c.synCuts E, auto⟩ spot src)) z i who ∧
      ∃ m ∈ net.g.nodes, ∃ n ∈ net.g.nodes, net'.data m = who ∧ net'.data n = .assignment loc ∧
        Reach (CombStep net) m n := by
  obtain ⟨c', h1, h2, h3, h4, h5, h6, h7⟩ := text_built hc hn hb hmarks
  obtain ⟨M', m1, m2, m3⟩ := text_meaning (S := ⟨E, c.synCuts E, auto⟩) h5 hauto h6 h7 hmarks hf
  have hbs : seen ⟨E, c.synCuts E, auto⟩ spot src.text b ∈
      blocksOf (eventsAll boxed E.opts.propCuts (seenAll ⟨E, c.synCuts E, auto⟩ spot src)) := by
    rw [seenAll, eventsAll_swap, blocksOf_swap]
    exact List.mem_map.2 ⟨b, hbm, rfl⟩
  obtain ⟨net', g1, g2, loc, g3, s, q, z, i, who, g4, g5, g6⟩ :=
    influence_path_partial hb h1 h3 h4 hl (h2 ▸ hr) m1 (m2 σ hs) (m2 σ' hs') hbs
      (fun ht => hk ((elabBlock_clocked (h7 b hbm)).1 ht)) ((m3 b hbm hk x j).2 hw) hne
  refine ⟨net', g1, g2, loc, g3, s, q, z, i, who, h2 ▸ g4, fun k e hwd => ?_, g5, g6⟩
  exact g5 (wired_constant (S := ⟨E, c.synCuts E, auto⟩) h6 hf hs hs' hwd g4.2)

/-- C72, from input ports to an output port, in terms of the answers of the tool. Two stable states of the
text differ, among the bits that neither a block assigns nor a connection supplies, in bits of input ports
only. If the tool reports no combinational loop, and answers every query for a combinational path from a
node of an input port with a changed bit to a node of output port `p` with bit `j` by the empty path, then
bit `j` of the output is the same in both states. -/
theorem text_same_output_partial {V : Type} {M : Sense V} {E : TravEnv} {auto : Nat → Bool}
    (hauto : ∀ x, auto x = false) {boxed : Str → Str → Bool} {ord : Tracker → List (Nat × Nat)} {src : SrcDesign}
    {f : TextLoc → TextLoc} {c : Col} {net : NetGraph} (hc : phase1 E src.tree = .ok c)
    (hn : netlistOf E auto atLoc ord (moveDesign f src) = .ok net)
    (hb : Buildable E boxed ord (seenAll ⟨E, c.synCuts E, auto⟩ atLoc (moveDesign f src)))
    (hmarks : ((blocksOf (eventsAll boxed E.opts.propCuts src.tree)).flatMap
      fun b => marksOf (SDeferred.stmt (src.text b))).Nodup)
    (hl : combLoops net = [])
    (hr : Regular E (eventsAll boxed E.opts.propCuts (seenAll ⟨E, c.synCuts E, auto⟩ spot src)) c.cuts)
    (hf : TextFaithful M ⟨E, c.synCuts E, auto⟩ src.text (blocksOf (eventsAll boxed E.opts.propCuts src.tree))
      (eventsAll boxed E.opts.propCuts (seenAll ⟨E, c.synCuts E, auto⟩ spot src))) {σ σ' : Vals V}
    (hs : TextSolves M E src.text (blocksOf (eventsAll boxed E.opts.propCuts src.tree))
      (eventsAll boxed E.opts.propCuts (seenAll ⟨E, c.synCuts E, auto⟩ spot src)) σ)
    (hs' : TextSolves M E src.text (blocksOf (eventsAll boxed E.opts.propCuts src.tree))
      (eventsAll boxed E.opts.propCuts (seenAll ⟨E, c.synCuts E, auto⟩ spot src)) σ')
    (hp : ∀ s q, Source E (eventsAll boxed E.opts.propCuts (seenAll ⟨E, c.synCuts E, auto⟩ spot src)) c.cuts s q →
      (∀ k e, ¬ Wired (eventsAll boxed E.opts.propCuts (seenAll ⟨E, c.synCuts E, auto⟩ spot src)) s q k e) →
      σ s q ≠ σ' s q → Bare (eventsAll boxed E.opts.propCuts (seenAll ⟨E, c.synCuts E, auto⟩ spot src)) s ∧
        E.D.kind s ≠ .modportPort ∧
        ∃ p, LastSupply (eventsAll boxed E.opts.propCuts (seenAll ⟨E, c.synCuts E, auto⟩ spot src)) s q p)
    {b : Deferred} (hbm : b ∈ blocksOf (eventsAll boxed E.opts.propCuts src.tree)) (hk : ¬ TextClocked (src.text b))
    {x j : Nat} (hw : Assigns (SDeferred.stmt (src.text b)) x j) {p : PortDecl}
    (hpo : .port p ∈ eventsAll boxed E.opts.propCuts (seenAll ⟨E, c.synCuts E, auto⟩ spot src))
    (hx : E.D.port x = some p.sym) {lo hi : Int} (hsp : Spans E c.cuts p x lo hi)
    (hin : ∀ w ∈ allWrites (seen ⟨E, c.synCuts E, auto⟩ spot src.text b).stmt, w.sym = x → InRng w.bounds j →
      lo ≤ w.bounds.lower ∧ w.bounds.upper ≤ hi)
    (hno : ∀ (s q n m : Nat) p',
      LastSupply (eventsAll boxed E.opts.propCuts (seenAll ⟨E, c.synCuts E, auto⟩ spot src)) s q p' → σ s q ≠ σ' s q →
      PortNode E.D net p' q n → PortNode E.D net p j m → findComb net n m = some []) : σ x j = σ' x j := by
  obtain ⟨c', h1, h2, h3, h4, h5, h6, h7⟩ := text_built hc hn hb hmarks
  obtain ⟨M', m1, m2, m3⟩ := text_meaning (S := ⟨E, c.synCuts E, auto⟩) h5 hauto h6 h7 hmarks hf
  have hbs : seen ⟨E, c.synCuts E, auto⟩ spot src.text b ∈
      blocksOf (eventsAll boxed E.opts.propCuts (seenAll ⟨E, c.synCuts E, auto⟩ spot src)) := by
    rw [seenAll, eventsAll_swap, blocksOf_swap]
    exact List.mem_map.2 ⟨b, hbm, rfl⟩
  refine no_path_same_output_partial hb h1 h3 h4 hl (h2 ▸ hr) m1 (m2 σ hs) (m2 σ' hs') (fun s q g1 g2 => ?_) hbs
    (fun ht => hk ((elabBlock_clocked (h7 b hbm)).1 ht)) ((m3 b hbm hk x j).2 hw) hpo hx (h2 ▸ hsp) hin hno
  exact hp s q (h2 ▸ g1)
    (fun k e hwd => g2 (wired_constant (S := ⟨E, c.synCuts E, auto⟩) h6 hf hs hs' hwd g1.2)) g2

/-! ### Concrete cases

```
module t(input [7:0] a, d, output [7:0] b, e);
  always_comb
    if (d)                       // line 1
      b = {a[3:0], a[7:4]};      // line 2
    else
      b = 0;                     // line 3
  assign e = ~d;                 // line 4
endmodule
```
The insides of the ports are the signals 0, 3, 1 and 4. The tree has two blocks that stand for the text. -/

def txAt (n : Nat) : TextLoc := ⟨0, n, 0⟩

def txSwap : SExpr := .concat 8 [.lsp 4 ⟨some 0, 0, 3⟩ [], .lsp 4 ⟨some 0, 4, 3⟩ []]

def txOne : SDeferred := .procedural .alwaysComb .other (.cond false (txAt 1) [hdWhole 3] (.choose true
  (.assign true { loc := txAt 2, origin := txAt 2, lhs := hdWhole 1, rhs := txSwap })
  (.assign true { loc := txAt 3, origin := txAt 3, lhs := hdWhole 1, rhs := .other 8 (some (List.replicate 8 .zero)) [] })))

def txTwo : SDeferred :=
  .continuous { loc := txAt 4, origin := txAt 4, lhs := hdWhole 4, rhs := .other 8 none [⟨some 3, 0, 7⟩] }

def txText : Deferred → SDeferred
  | .continuous l _ => if l.line = 1 then txOne else txTwo
  | _ => txTwo

def txK (n : Nat) : Deferred := .continuous (txAt n) (.aligned [])

def txTop (b1 b2 : Deferred) : List Member := [.inst false ['t'] ['t'] [.port (hdIn 20 0), .port (hdIn 22 3),
  .port (hdOut 21 1), .port (hdOut 23 4), .block b1, .block b2] []]

def txSrc : SrcDesign := ⟨txTop (txK 1) (txK 2), txText⟩

def txCol : Col := (phase1 hdE txSrc.tree).toOption.getD {}

/-- What the analysis sees of the blocks. -/
def txB1 (pl : TextLoc → Nat → TextLoc) : Deferred := .procedural .alwaysComb .other
  (.seq (.branch false (pl (txAt 1) 0)) (.seq (.reads [dsRef 3]) (.choose true
    (.assign (pl (txAt 2) 0) true (.aligned [⟨[⟨1, ⟨0, 3⟩, 0, false⟩], [.lsp ⟨0, ⟨4, 7⟩, 0, false⟩], pl (txAt 2) 0⟩,
      ⟨[⟨1, ⟨4, 7⟩, 0, false⟩], [.lsp ⟨0, ⟨0, 3⟩, 0, false⟩], pl (txAt 2) 1⟩]))
    (.assign (pl (txAt 3) 0) true (.aligned [⟨[dsRef 1], [.constant [] 8 (txAt 3)], pl (txAt 3) 0⟩])))))
def txB2 (pl : TextLoc → Nat → TextLoc) : Deferred :=
  .continuous (pl (txAt 4) 0) (.aligned [⟨[dsRef 4], [.opaque [dsRef 3]], pl (txAt 4) 0⟩])

def txEvents (b1 b2 : Deferred) : List Event := [.port (hdIn 20 0), .port (hdIn 22 3), .port (hdOut 21 1),
  .port (hdOut 23 4), .block b1, .block b2]

theorem tx_events (b1 b2 : Deferred) : eventsAll hdBoxed hdE.opts.propCuts (txTop b1 b2) = txEvents b1 b2 := by
  simp [txTop, eventsAll, events, hdBoxed, txEvents]

theorem tx_elab (b1 b2 : Deferred) : Elaborated hdE hdBoxed (txTop b1 b2) where
  boxes := by simp [DecidesBoxes, Boxed, hdBoxed, hdE]
  ok := by
    rw [tx_events]
    simp [txEvents, EventOk, hdIn, hdOut, PortDriver.hi, hdE, hdD]
  once := by
    rw [tx_events]
    show [20, 22, 21, 23].Nodup
    decide

theorem tx_phase1 : phase1 hdE txSrc.tree = .ok txCol := by
  obtain ⟨c, h, _⟩ := phase1_total_partial (tx_elab (txK 1) (txK 2))
  rw [txCol]
  show phase1 hdE (txTop (txK 1) (txK 2)) = .ok ((phase1 hdE (txTop (txK 1) (txK 2))).toOption.getD {})
  rw [h]; rfl

/-- Ports, variables and blocks leave the cuts alone. -/
theorem steps_uncut {E : TravEnv} : ∀ (es : List Event) {c c' : Col}, Fine E.D c →
    (∀ ev ∈ es, EventOk E.D ev ∧ ((∃ p, ev = .port p) ∨ (∃ x ds, ev = .variable x ds) ∨ ∃ b, ev = .block b)) → Col.steps E c es = .ok c' →
    c'.cuts = c.cuts
  | [], c, c', _, _, h => by cases h; rfl
  | ev :: es, c, c', hf, hok, h => by
    simp only [Col.steps] at h
    obtain ⟨h1, h2⟩ := hok ev (by simp)
    have hrest : ∀ ev ∈ es, EventOk E.D ev ∧ ((∃ p, ev = .port p) ∨ (∃ x ds, ev = .variable x ds) ∨ ∃ b, ev = .block b) := fun e he => hok e (by simp [he])
    rcases h2 with ⟨p, rfl⟩ | ⟨x, ds, rfl⟩ | ⟨b, rfl⟩
    · obtain ⟨c1, a1, a2⟩ := port_ok hf h1
      have a1' : Col.step E c (.port p) = .ok c1 := a1
      rw [a1'] at h
      exact (steps_uncut es a2.fine hrest h).trans a2.still.cuts
    · obtain ⟨c1, a1, a2, _, a4, _⟩ := variable_ok ds hf h1
      have a1' : Col.step E c (.variable x ds) = .ok c1 := a1
      rw [a1'] at h
      exact (steps_uncut es a2 hrest h).trans a4.cuts
    · simp only [Col.step] at h
      exact steps_uncut es (c := { c with blocks := c.blocks ++ [b] }) ⟨hf.ok, hf.hist, hf.cuts, hf.rng⟩ hrest h

theorem tx_cuts : txCol.cuts = fun _ => none := by
  have h := tx_elab (txK 1) (txK 2)
  obtain ⟨c, a1, a2, _⟩ := walked h
  have hcc : txCol = c := Except.ok.inj (tx_phase1.symm.trans a1)
  rw [hcc]
  refine steps_uncut _ (fine_start hdE.D) ?_ a2.run
  intro ev hev
  refine ⟨h.ok ev hev, ?_⟩
  rw [tx_events] at hev
  simp [txEvents] at hev
  rcases hev with rfl | rfl | rfl | rfl | rfl | rfl <;> simp

theorem tx_env : (⟨hdE, txCol.synCuts hdE, fun _ => false⟩ : SynEnv) = ⟨hdE, fun _ => none, fun _ => false⟩ := by
  rw [Col.synCuts, tx_cuts]
  simp

theorem tx_elab1 : elabBlock ⟨hdE, fun _ => none, fun _ => false⟩ spot txOne = .ok (txB1 spot) := by rfl
theorem tx_elab2 : elabBlock ⟨hdE, fun _ => none, fun _ => false⟩ spot txTwo = .ok (txB2 spot) := by rfl
theorem tx_elab1' : elabBlock ⟨hdE, fun _ => none, fun _ => false⟩ atLoc (moveTextBlock id txOne) = .ok (txB1 atLoc) := by rfl
theorem tx_elab2' : elabBlock ⟨hdE, fun _ => none, fun _ => false⟩ atLoc (moveTextBlock id txTwo) = .ok (txB2 atLoc) := by rfl

theorem tx_text : txText (txK 1) = txOne ∧ txText (txK 2) = txTwo := ⟨rfl, rfl⟩

theorem tx_seen : seenAll ⟨hdE, txCol.synCuts hdE, fun _ => false⟩ spot txSrc = txTop (txB1 spot) (txB2 spot) := by
  rw [tx_env]
  simp [seenAll, txSrc, txTop, withBlocks, withBlock, seen, tx_text, tx_elab1, tx_elab2]

theorem tx_seen_at : seenAll ⟨hdE, txCol.synCuts hdE, fun _ => false⟩ atLoc (moveDesign id txSrc) =
    txTop (txB1 atLoc) (txB2 atLoc) := by
  rw [tx_env]
  simp [seenAll, moveDesign, txSrc, txTop, withBlocks, withBlock, seen, tx_text, tx_elab1', tx_elab2']

def txFlat : List Member := txTop (txB1 atLoc) (txB2 atLoc)
def txFlatCol : Col := (phase1 hdE txFlat).toOption.getD {}
def txNet : NetGraph := (netlistOf hdE (fun _ => false) atLoc Tracker.slots (moveDesign id txSrc)).toOption.getD {}

theorem tx_flat_phase1 : phase1 hdE txFlat = .ok txFlatCol := by
  obtain ⟨c, h, _⟩ := phase1_total_partial (tx_elab (txB1 atLoc) (txB2 atLoc))
  rw [txFlatCol, txFlat, h]; rfl

theorem tx_build : Buildable hdE hdBoxed Tracker.slots txFlat where
  design := tx_elab _ _
  plain := by
    intro c hc
    rw [tx_flat_phase1] at hc
    exact Except.ok.inj hc ▸
      plain_of_two (lo := 0) (mid := 3) (hi := 7) (by decide) (by decide) (by decide +kernel) (by decide) (by decide)
  live := by
    rw [txFlat, tx_events]
    intro b hb; simp [txEvents, blocksOf] at hb; rcases hb with rfl | rfl <;> decide
  events := by
    rw [txFlat, tx_events]
    intro b hb; simp [txEvents, blocksOf] at hb
    rcases hb with rfl | rfl
    · simp [txB1, PlainEvents, SignalEventsOnly, eventsOf, PlainClocks]
    · trivial
  visits := fun _ => List.Perm.refl _
  ports := by
    rw [txFlat, tx_events]
    have : ∀ b ∈ [txB1 atLoc, txB2 atLoc], ∀ w ∈ allWrites b.stmt, w.sym < 20 := by
      intro b hb; simp at hb; rcases hb with rfl | rfl <;> decide
    intro p hp b hb w hw
    have := this b hb w hw
    simp [txEvents, hdIn, hdOut] at hp
    rcases hp with rfl | rfl | rfl | rfl <;> simp only <;> omega

theorem tx_net : netlistOf hdE (fun _ => false) atLoc Tracker.slots (moveDesign id txSrc) = .ok txNet := by
  have h : (netlistOf hdE (fun _ => false) atLoc Tracker.slots (moveDesign id txSrc)).toOption.isSome = true := by
    decide +kernel
  rw [txNet]
  generalize netlistOf hdE (fun _ => false) atLoc Tracker.slots (moveDesign id txSrc) = r at h
  cases r with
  | error e => cases h
  | ok net => rfl

theorem tx_loops : combLoops txNet = [] := by decide +kernel

theorem tx_blocks (b1 b2 : Deferred) : blocksOf (txEvents b1 b2) = [b1, b2] := rfl

theorem tx_no_conn {b1 b2 : Deferred} {p : PortDecl} {k : Conn} : ¬ Before (txEvents b1 b2) p k := by
  intro h
  have := (before_mem h).2
  simp [txEvents] at this

theorem tx_no_inlet {b1 b2 : Deferred} {y q x j : Nat} : ¬ Inlet hdE (txEvents b1 b2) y q x j := by
  rintro ⟨p, k, _, h, _⟩
  exact tx_no_conn h.1

theorem tx_clocked {b : Deferred} (hb : b ∈ [txB1 spot, txB2 spot]) : ¬ Clocked b := by
  rintro ⟨⟨v, hv, _⟩, _⟩
  simp at hb
  rcases hb with rfl | rfl <;> cases hv

theorem tx_bare {y : Nat} (h : y < 20) : Bare (txEvents (txB1 spot) (txB2 spot)) y := by
  refine ⟨fun ev hev hy => ?_, fun b hb hc => absurd hc (tx_clocked hb)⟩
  simp [txEvents] at hev
  rcases hev with rfl | rfl | rfl | rfl | rfl | rfl <;> simp [declares, hdIn, hdOut] at hy <;> omega

theorem tx_assigned {y q : Nat} {cuts : CutReg} (h : Assigned hdE (txEvents (txB1 spot) (txB2 spot)) cuts y q) :
    y = 1 ∨ y = 4 := by
  obtain ⟨b, hb, _, x, j, ⟨w, hw, _, hx, _⟩, h⟩ := h
  rcases h with ⟨_, rfl, _⟩ | ⟨_, _, _, h⟩
  · have : ∀ b ∈ [txB1 spot, txB2 spot], ∀ w ∈ allWrites b.stmt, w.sym = 1 ∨ w.sym = 4 := by
      intro b hb; simp at hb; rcases hb with rfl | rfl <;> decide
    rw [← hx]; exact this b hb w hw
  · cases h with
    | one h => obtain ⟨p, _, h, _⟩ := h; exact absurd h.1 tx_no_conn
    | more h _ => obtain ⟨p, _, h, _⟩ := h; exact absurd h.1 tx_no_conn

/-- An assignment that reads nothing the block writes. -/
theorem comb_apart {W : List Wr} {loc : TextLoc} {segs : List DSeg}
    (h : ∀ r ∈ readsOf (.assign loc true (.aligned segs)), ∀ w ∈ W, w.sym ≠ r.sym)
    (hW : ∀ w ∈ asgWrites loc true (.aligned segs), w ∈ W) : Comb W (.assign loc true (.aligned segs)) := by
  refine .assign ?_ fun l r hr => fits_apart (h r (asgReads_in hr))
  rintro pre g post rfl x hx r hr
  have hg := h r (asgReads_in (.seg (g := g) (by simp) hx hr))
  refine ⟨fun p _ w hw hs => hg w (hW w ?_) hs.2.1, fun p _ w hw hs => hg w (hW w ?_) hs.2.1⟩
  · simp only [asgWrites, List.flatMap_append, List.mem_append] at hw ⊢
    exact .inl hw
  · simp only [asgWrites, List.flatMap_append, List.mem_append, List.flatMap_cons] at hw ⊢
    exact .inr (.inr hw)

/-- Bits 0 to 7 of `x` are written. -/
theorem tx_hits {ws : List Wr} {x : Nat} {p : Int} (hp : 0 ≤ p ∧ p ≤ 7)
    (h : (∃ w ∈ ws, w.blocking = true ∧ w.sym = x ∧ w.bounds = ⟨0, 7⟩) ∨
      ((∃ w ∈ ws, w.blocking = true ∧ w.sym = x ∧ w.bounds = ⟨0, 3⟩) ∧
        ∃ w ∈ ws, w.blocking = true ∧ w.sym = x ∧ w.bounds = ⟨4, 7⟩)) : ∃ w ∈ ws, Hits true x p w := by
  rcases h with ⟨w, h1, h2, h3, h4⟩ | ⟨⟨w, h1, h2, h3, h4⟩, ⟨w', h1', h2', h3', h4'⟩⟩
  · exact ⟨w, h1, h2, h3, h4 ▸ eight.2 hp⟩
  · by_cases h : p ≤ 3
    · exact ⟨w, h1, h2, h3, h4 ▸ (inRng_iff _ _).2 ⟨by simp [BitRange.lower]; omega, by simp [BitRange.upper]; omega⟩⟩
    · exact ⟨w', h1', h2', h3', h4' ▸ (inRng_iff _ _).2 ⟨by simp [BitRange.lower]; omega, by simp [BitRange.upper]; omega⟩⟩

theorem tx_in {x : Nat} {p : Int} {ws : List Wr} (h : ∃ w ∈ ws, Hits true x p w)
    (hb : ∀ w ∈ ws, w.bounds = ⟨0, 3⟩ ∨ w.bounds = ⟨4, 7⟩ ∨ w.bounds = ⟨0, 7⟩) : 0 ≤ p ∧ p ≤ 7 := by
  obtain ⟨w, hw, _, _, h⟩ := h
  have := (inRng_iff _ _).1 h
  rcases hb w hw with e | e | e <;> rw [e] at this <;> simp [BitRange.lower, BitRange.upper] at this <;> omega

theorem tx_regular (cuts : CutReg) : Regular hdE (txEvents (txB1 spot) (txB2 spot)) cuts where
  comb := by
    intro b hb _
    rw [tx_blocks] at hb; simp at hb
    rcases hb with rfl | rfl
    · refine .cond (.choose .assign .assign) (.choose (comb_apart (by decide) (by decide)) (comb_apart (by decide) (by decide))) ?_
      intro r hr _
      simp at hr; subst hr
      exact fits_apart (by decide)
    · exact comb_apart (by decide) (by decide)
  settled := by
    intro b hb _
    rw [tx_blocks] at hb; simp at hb
    rcases hb with rfl | rfl <;> exact settled_apart (by decide) (by decide)
  complete := by
    intro b hb _ x p hx tr ht
    rw [tx_blocks] at hb; simp at hb
    rcases hb with rfl | rfl
    · have hp := tx_in hx (by decide)
      have h1 : x = 1 := by
        obtain ⟨w, hw, _, h, _⟩ := hx
        rw [← h]
        exact (by decide : ∀ w ∈ allWrites (txB1 spot).stmt, w.sym = 1) w hw
      subst h1
      cases ht with
      | seq h1 h2 =>
        cases h1
        cases h2 with
        | seq h1 h2 =>
          cases h1
          cases h2 with
          | first h => cases h; exact tx_hits hp (.inr (by decide))
          | second h => cases h; exact tx_hits hp (.inl (by decide))
    · have hp := tx_in hx (by decide)
      have h1 : x = 4 := by
        obtain ⟨w, hw, _, h, _⟩ := hx
        rw [← h]
        exact (by decide : ∀ w ∈ allWrites (txB2 spot).stmt, w.sym = 4) w hw
      subst h1
      cases ht
      exact tx_hits hp (.inl (by decide))
  assigned := by
    intro y q h
    have := tx_assigned h
    exact ⟨tx_bare (by omega), by simp [hdE, hdD]⟩
  inlets := fun y q x j h => absurd h tx_no_inlet
  outlets := fun p k e h => absurd h tx_no_conn
  nested := ⟨fun _ => 0, fun y q x j h => absurd h tx_no_inlet⟩

/-- What the lines compute. -/
def txM : Sense Bool where
  bit := fun b => b == .one
  value := fun loc ρ k => if loc.line = 2 then (if k < 4 then ρ 0 ((4 + k : Nat) : Int) else ρ 0 ((0 + (k - 4) : Nat) : Int))
    else if loc.line = 4 then !ρ 3 k else false
  pick := fun _ _ ρ _ => ρ 3 0
  feed := fun _ _ _ => false

/-- The state in which all bits of `a` are `v`, and those of `d` are 1. -/
def txVals (v : Bool) : Vals Bool := fun x p => decide (0 ≤ p ∧ p ≤ 7) && (decide (x = 3) || decide (x < 2) && v)

theorem tx_whole (y : Nat) : Lvalue (hdWhole y) ∧ Static (hdWhole y) ∧ ∀ cuts, WT cuts (hdWhole y) := by
  simp [hdWhole, Lvalue, Static, WT, pathsList]

theorem tx_faithful : TextFaithful txM ⟨hdE, fun _ => none, fun _ => false⟩ txText [txK 1, txK 2]
    (txEvents (txB1 spot) (txB2 spot)) where
  blocks := by
    intro b hb _
    simp at hb
    rcases hb with rfl | rfl
    · rw [tx_text.1]
      refine ⟨?_, ⟨⟨rfl, rfl, ?_, ?_, rfl, ?_, ?_, fun _ _ => ?_⟩, ?_⟩, ⟨⟨rfl, rfl, ?_, ?_, rfl, ?_, ?_, fun _ _ => ?_⟩, ?_⟩⟩
      · intro ρ ρ' h
        funext n
        exact h 3 0 ⟨0, rfl, ⟨some 3, 0, 7⟩, by simp [pathsList, hdWhole, SExpr.paths], rfl, by decide, by decide⟩
      · exact (tx_whole 1).2.2 _
      · simp [txSwap, WT, WTs, SExpr.width]
      · exact (tx_whole 1).1
      · exact (tx_whole 1).2.1
      · simp [txSwap, Static, StaticOps, pathsList]
      · refine ⟨fun ρ k => ρ 0 ((0 + k : Nat) : Int), fun ρ k => ρ 0 ((4 + k : Nat) : Int), ?_, ?_, fun ρ k => rfl⟩
        · exact .inl ⟨rfl, rfl, 0, rfl, fun _ _ _ => rfl⟩
        · exact ⟨fun ρ k => ρ 0 ((4 + k : Nat) : Int), fun _ _ => false, .inl ⟨rfl, rfl, 0, rfl, fun _ _ _ => rfl⟩,
            trivial, fun ρ k => by simp⟩
      · exact (tx_whole 1).2.2 _
      · simp [WT]
      · exact (tx_whole 1).1
      · exact (tx_whole 1).2.1
      · simp [Static]
      · refine .inl ⟨_, rfl, rfl, fun ρ k hk => ?_⟩
        have : k = 0 ∨ k = 1 ∨ k = 2 ∨ k = 3 ∨ k = 4 ∨ k = 5 ∨ k = 6 ∨ k = 7 := by omega
        rcases this with rfl | rfl | rfl | rfl | rfl | rfl | rfl | rfl <;> rfl
    · rw [tx_text.2]
      refine ⟨⟨rfl, rfl, (tx_whole 4).2.2 _, ?_, rfl, (tx_whole 4).1, (tx_whole 4).2.1, fun _ _ => ?_⟩, ?_⟩
      · simp [WT]
      · simp [Static]
      · refine .inr ⟨by simp, fun k hk ρ ρ' h => ?_⟩
        simp only [txM, txAt]
        rw [h 3 k ⟨k, rfl, ⟨some 3, 0, 7⟩, by simp, rfl, by simp, by simp [LspPath.hi]; omega⟩]
        simp
  inlets := by
    rintro x j k e ⟨p, _, h, _⟩
    exact absurd h tx_no_conn

theorem tx_stands {y k x : Nat} {p : Int} : StandsFor (hdWhole y) k x p ↔ y = x ∧ (k : Int) = p := by
  simp [StandsFor, hdWhole, lhsBit]

theorem tx_last {y : Nat} {p : Int} (hp : 0 ≤ p ∧ p ≤ 7) : lastBit (hdWhole y) y p 0 8 = some p.toNat := by
  cases h : lastBit (hdWhole y) y p 0 8 with
  | none => exact absurd (tx_stands.2 ⟨rfl, by omega⟩) (lastBit_none h p.toNat (by omega) (by omega))
  | some k =>
    have := (tx_stands.1 (lastBit_some h).2.2).2
    congr
    omega

theorem tx_solves (v : Bool) : TextSolves txM hdE txText [txK 1, txK 2] (txEvents (txB1 spot) (txB2 spot)) (txVals v) where
  blocks := by
    intro b hb _ x p ha
    simp at hb
    rcases hb with rfl | rfl
    · rw [tx_text.1] at ha ⊢
      have h1 : 1 = x ∧ 0 ≤ p ∧ p ≤ 7 := by
        simp only [txOne, SDeferred.stmt, Assigns, tx_stands] at ha
        rcases ha with ⟨_, k, h1, h2, h3⟩ | ⟨_, k, h1, h2, h3⟩ <;> simp only [hdWhole, SExpr.width] at h1 <;>
          exact ⟨h2, by omega, by omega⟩
      obtain ⟨rfl, hp⟩ := h1
      simp only [txOne, SDeferred.stmt, runText, if_true, putBits, txM, txAt]
      have e : (hdWhole 1).width = 8 := rfl
      rw [if_pos (by cases v <;> decide)]
      simp only [putBits]
      rw [e, tx_last hp]
      cases v <;> simp [txVals, hp] <;> split <;> omega
    · rw [tx_text.2] at ha ⊢
      have h1 : 4 = x ∧ 0 ≤ p ∧ p ≤ 7 := by
        simp only [txTwo, SDeferred.stmt, Assigns, tx_stands] at ha
        obtain ⟨_, k, h1, h2, h3⟩ := ha
        simp only [hdWhole, SExpr.width] at h1
        exact ⟨h2, by omega, by omega⟩
      obtain ⟨rfl, hp⟩ := h1
      simp only [txTwo, SDeferred.stmt, runText, if_true, putBits, txM, txAt]
      have e : (hdWhole 4).width = 8 := rfl
      rw [e, tx_last hp]
      cases v <;> simp [txVals, hp] <;> omega
  inlets := by
    rintro x j k e ⟨p, _, h, _⟩
    exact absurd h tx_no_conn
  outlets := by
    rintro x j y q ⟨p, k, e, _, h, _⟩
    exact absurd h.1 tx_no_conn

theorem tx_marks : (([txK 1, txK 2] : List Deferred).flatMap fun b => marksOf (SDeferred.stmt (txText b))).Nodup := by
  decide

theorem tx_tree_blocks : blocksOf (eventsAll hdBoxed hdE.opts.propCuts txSrc.tree) = [txK 1, txK 2] := by
  rw [txSrc, tx_events, tx_blocks]

/-- Output `b` differs between the states, so there is a path. -/
example : ∃ net', netlist hdE Tracker.slots (txTop (txB1 spot) (txB2 spot)) = .ok net' ∧
    txNet = moveNet (id ∘ unspot) net' ∧ ∃ loc, Leaves (txB1 spot).stmt 1 0 loc ∧
      ∃ m ∈ txNet.g.nodes, ∃ n ∈ txNet.g.nodes, net'.data n = .assignment loc ∧ Reach (CombStep txNet) m n := by
  obtain ⟨net', h1, h2, loc, h3, s, q, z, i, who, _, _, _, _, _, m, m1, n, n1, _, n3, h⟩ :=
    text_influence_partial (M := txM) (fun _ => rfl) (boxed := hdBoxed) (src := txSrc) (f := id) tx_phase1 tx_net
      (by rw [tx_seen_at]; exact tx_build) (by rw [tx_tree_blocks]; exact tx_marks) tx_loops
      (by rw [tx_seen, tx_events]; exact tx_regular _) (by rw [tx_tree_blocks, tx_seen, tx_env, tx_events]; exact tx_faithful)
      (by rw [tx_tree_blocks, tx_seen, tx_events]; exact tx_solves false)
      (by rw [tx_tree_blocks, tx_seen, tx_events]; exact tx_solves true) (b := txK 1)
      (by rw [tx_tree_blocks]; simp) (by rintro ⟨⟨v, hv, _⟩, _⟩; cases hv) (x := 1) (j := 0)
      (.inl ⟨rfl, 0, by decide, tx_stands.2 ⟨rfl, rfl⟩⟩) (by decide)
  have hs : seen ⟨hdE, txCol.synCuts hdE, fun _ => false⟩ spot txSrc.text (txK 1) = txB1 spot := by
    rw [tx_env]
    simp [seen, txSrc, tx_text, tx_elab1]
  exact ⟨net', tx_seen ▸ h1, h2, loc, hs ▸ h3, m, m1, n, n1, n3, h⟩

theorem tx_supply {s q : Nat} {p : PortDecl} (h : LastSupply (txEvents (txB1 spot) (txB2 spot)) s q p) (hs : s ≠ 3) :
    s = 0 ∧ p = hdIn 20 0 := by
  obtain ⟨pre, post, h1, h2, _⟩ := h
  have hm : Event.port p ∈ txEvents (txB1 spot) (txB2 spot) := h1 ▸ by simp
  simp [txEvents] at hm
  obtain ⟨a1, d, a2, a3, _⟩ := h2
  rcases hm with rfl | rfl | rfl | rfl <;> simp [hdIn, hdOut] at a1 a2 <;> subst a2
  · exact ⟨a1.symm, rfl⟩
  · omega
  · cases a3
  · cases a3

/-- The states differ, among the sources, in bits of port `a` only. -/
theorem tx_sources {s q : Nat} {cuts : CutReg} (h : Source hdE (txEvents (txB1 spot) (txB2 spot)) cuts s q)
    (hne : txVals false s q ≠ txVals true s q) : s = 0 ∧ q ≤ 7 := by
  have h0 : s < 2 ∧ q ≤ 7 := by
    refine Classical.byContradiction fun hc => hne ?_
    unfold txVals
    by_cases h1 : s < 2
    · rw [decide_eq_false (by omega : ¬ (0 ≤ (q : Int) ∧ (q : Int) ≤ 7))]
      rfl
    · simp [h1]
  have g1 : s ≠ 1 := by
    rintro rfl
    exact h.1 ⟨txB1 spot, by rw [tx_blocks]; simp, tx_clocked (by simp), 1, q,
      tx_hits (by omega) (.inl (by decide)), .inl ⟨tx_clocked (by simp), rfl, rfl⟩⟩
  omega

/-- There is no path from port `a` to port `e`, so `e` is the same in both states. -/
example : txVals false 4 0 = txVals true 4 0 :=
  text_same_output_partial (M := txM) (fun _ => rfl) (boxed := hdBoxed) (src := txSrc) (f := id) tx_phase1 tx_net
    (by rw [tx_seen_at]; exact tx_build) (by rw [tx_tree_blocks]; exact tx_marks) tx_loops
    (by rw [tx_seen, tx_events]; exact tx_regular _) (by rw [tx_tree_blocks, tx_seen, tx_env, tx_events]; exact tx_faithful)
    (by rw [tx_tree_blocks, tx_seen, tx_events]; exact tx_solves false)
    (by rw [tx_tree_blocks, tx_seen, tx_events]; exact tx_solves true)
    (by
      rw [tx_seen, tx_events]
      intro s q h _ hne
      obtain ⟨rfl, hq⟩ := tx_sources h hne
      refine ⟨tx_bare (by decide), by simp [hdE, hdD], hdIn 20 0, [], _, rfl,
        ⟨rfl, ⟨0, 7, true⟩, by simp [hdIn], rfl, by simp, hq⟩, ?_⟩
      intro p hp hs
      simp at hp
      rcases hp with rfl | rfl | rfl <;> simp [Supplies, hdIn, hdOut] at hs)
    (b := txK 2) (by rw [tx_tree_blocks]; simp) (fun h => h) ⟨rfl, 0, by decide, tx_stands.2 ⟨rfl, rfl⟩⟩
    (p := hdOut 23 4) (by rw [tx_seen, tx_events]; simp [txEvents]) rfl (lo := 0) (hi := 7)
    ⟨rfl, by decide, ⟨⟨0, 7, false⟩, by simp [hdOut], by decide, by decide⟩,
      fun _ l hl => by rw [tx_cuts] at hl; cases hl⟩
    (by
      have hs : seen ⟨hdE, txCol.synCuts hdE, fun _ => false⟩ spot txSrc.text (txK 2) = txB2 spot := by
        rw [tx_env]
        simp [seen, txSrc, tx_text, tx_elab2]
      rw [hs]
      intro w hw _ _
      simp [txB2, Deferred.stmt, allWrites, asgWrites, dsRef] at hw; subst hw; decide)
    (by
      rw [tx_seen, tx_events]
      intro s q n m p' h1 h2 h3 h4
      have hs : s ≠ 3 := by rintro rfl; exact h2 rfl
      obtain ⟨rfl, rfl⟩ := tx_supply h1 hs
      obtain ⟨n1, x, b, hx, _, n2⟩ := h3
      obtain ⟨m1, y, b', hy, _, m2⟩ := h4
      cases hx; cases hy
      exact (by decide +kernel : ∀ n ∈ txNet.g.nodes, ∀ m ∈ txNet.g.nodes, portName (txNet.data n) = some ['a'] →
        portName (txNet.data m) = some ['e'] → findComb txNet n m = some []) n n1 m m1 (by rw [n2]; rfl) (by rw [m2]; rfl))

/-! ### An influence the netlist lacks

```
module t(input signed [7:0] a, d, output [7:0] b, e);
  wire signed [7:0] c;
  assign c = a[3:0];      // line 1, sign-extended
  assign b = c[7:4];      // line 2, zero-extended
endmodule
```
-/

def sxOne : SDeferred := .continuous
  { loc := txAt 1, origin := txAt 1, lhs := hdWhole 2, rhs := .conv 8 true none (.lsp 4 ⟨some 0, 0, 3⟩ []) }

def sxTwo : SDeferred := .continuous
  { loc := txAt 2, origin := txAt 2, lhs := hdWhole 1, rhs := .conv 8 false none (.lsp 4 ⟨some 2, 4, 3⟩ []) }

def sxSrc : SrcDesign := ⟨txTop (txK 1) (txK 2), fun b => match b with
  | .continuous l _ => if l.line = 1 then sxOne else sxTwo
  | _ => sxTwo⟩

def sxNet : NetGraph := (netlistOf hdE (fun _ => false) atLoc Tracker.slots sxSrc).toOption.getD {}

def sxM : Sense Bool where
  bit := fun b => b == .one
  value := fun loc ρ k => if loc.line = 1 then (if k < 4 then ρ 0 ((0 + k : Nat) : Int) else ρ 0 ((0 + 3 : Nat) : Int))
    else if k < 4 then ρ 2 ((4 + k : Nat) : Int) else false
  pick := fun _ _ _ _ => false
  feed := fun _ _ _ => false

/-- The state in which all bits of `a` are `v`. -/
def sxVals (v : Bool) : Vals Bool := fun x p =>
  decide (0 ≤ p ∧ p ≤ 7) && (decide (x = 0 ∨ x = 2) || (decide (x = 1) && decide (p ≤ 3))) && v

theorem sx_solves (v : Bool) : ∀ b ∈ [sxOne, sxTwo], ∀ x p, Assigns (SDeferred.stmt b) x p →
    sxVals v x p = runText sxM (SDeferred.stmt b) (fun _ => true) (sxVals v) x p := by
  intro b hb x p ha
  simp at hb
  rcases hb with rfl | rfl
  · have h1 : 2 = x ∧ 0 ≤ p ∧ p ≤ 7 := by
      simp only [sxOne, SDeferred.stmt, Assigns, tx_stands] at ha
      obtain ⟨_, k, h1, h2, h3⟩ := ha
      simp only [hdWhole, SExpr.width] at h1
      exact ⟨h2, by omega, by omega⟩
    obtain ⟨rfl, hp⟩ := h1
    simp only [sxOne, SDeferred.stmt, runText, if_true, putBits, sxM, txAt]
    have e : (hdWhole 2).width = 8 := rfl
    rw [e, tx_last hp]
    cases v <;> simp [sxVals, hp] <;> omega
  · have h1 : 1 = x ∧ 0 ≤ p ∧ p ≤ 7 := by
      simp only [sxTwo, SDeferred.stmt, Assigns, tx_stands] at ha
      obtain ⟨_, k, h1, h2, h3⟩ := ha
      simp only [hdWhole, SExpr.width] at h1
      exact ⟨h2, by omega, by omega⟩
    obtain ⟨rfl, hp⟩ := h1
    simp only [sxTwo, SDeferred.stmt, runText, if_true, putBits, sxM, txAt]
    have e : (hdWhole 1).width = 8 := rfl
    rw [e, tx_last hp]
    by_cases h4 : p.toNat < 4
    · have : p ≤ 3 := by omega
      simp [sxVals, hp, h4, this]
      omega
    · have : ¬ p ≤ 3 := by omega
      simp [sxVals, h4, this]

/-- Sign extension loses an influence: two stable states of the text differ in output `b` though all their
differences come from input `a`, while no loop is reported and no query for a path from `a` to `b` finds
one. -/
theorem influence_lost_sign :
    netlistOf hdE (fun _ => false) atLoc Tracker.slots sxSrc = .ok sxNet ∧ combLoops sxNet = [] ∧
    (∀ n ∈ sxNet.g.nodes, ∀ m ∈ sxNet.g.nodes, portName (sxNet.data n) = some ['a'] →
      portName (sxNet.data m) = some ['b'] → findComb sxNet n m = some []) ∧
    (∀ b ∈ [txK 1, txK 2], ∃ a, sxSrc.text b = .continuous a ∧ Denotes sxM.bit a.rhs (sxM.value a.loc)) ∧
    (∀ v, TextSolves sxM hdE sxSrc.text [txK 1, txK 2] (eventsAll hdBoxed hdE.opts.propCuts sxSrc.tree) (sxVals v)) ∧
    (∀ x p, sxVals false x p ≠ sxVals true x p → x = 0 ∨ ∃ b ∈ [txK 1, txK 2], Assigns (SDeferred.stmt (sxSrc.text b)) x p) ∧
    sxVals false 1 0 ≠ sxVals true 1 0 := by
  refine ⟨?_, by decide +kernel, by decide +kernel, ?_, fun v => ⟨?_, ?_, ?_⟩, ?_, by decide⟩
  · have h : (netlistOf hdE (fun _ => false) atLoc Tracker.slots sxSrc).toOption.isSome = true := by decide +kernel
    rw [sxNet]
    generalize netlistOf hdE (fun _ => false) atLoc Tracker.slots sxSrc = r at h
    cases r with
    | error e => cases h
    | ok net => rfl
  · intro b hb
    simp at hb
    rcases hb with rfl | rfl
    · refine ⟨_, rfl, .inr ⟨by simp, fun ρ k => ρ 0 ((0 + k : Nat) : Int), .inl ⟨rfl, rfl, 0, rfl, fun _ _ _ => rfl⟩, ?_⟩⟩
      intro ρ k hk
      simp [sxM, txAt, SExpr.width]
    · refine ⟨_, rfl, .inr ⟨by simp, fun ρ k => ρ 2 ((4 + k : Nat) : Int), .inl ⟨rfl, rfl, 2, rfl, fun _ _ _ => rfl⟩, ?_⟩⟩
      intro ρ k hk
      show (if k < 4 then ρ 2 ((4 + k : Nat) : Int) else false) = _
      rfl
  · intro b hb _
    simp at hb
    rcases hb with rfl | rfl
    · exact sx_solves v sxOne (by simp)
    · exact sx_solves v sxTwo (by simp)
  · rintro x j k e ⟨p, _, h, _⟩
    rw [sxSrc, tx_events] at h
    exact absurd h tx_no_conn
  · rintro x j y q ⟨p, k, e, _, h, _⟩
    rw [sxSrc, tx_events] at h
    exact absurd h.1 tx_no_conn
  · intro x p hne
    have h0 : (0 ≤ p ∧ p ≤ 7) ∧ (x = 0 ∨ x = 2 ∨ x = 1) := by
      refine Classical.byContradiction fun hc => hne ?_
      unfold sxVals
      by_cases h1 : 0 ≤ p ∧ p ≤ 7
      · have : x ≠ 0 ∧ x ≠ 2 ∧ x ≠ 1 := by omega
        simp [this]
      · simp [h1]
    obtain ⟨hp, rfl | rfl | rfl⟩ := h0
    · exact .inl rfl
    · exact .inr ⟨txK 1, by simp, rfl, p.toNat, by simp [sxOne, hdWhole, SExpr.width]; omega, tx_stands.2 ⟨rfl, by omega⟩⟩
    · exact .inr ⟨txK 2, by simp, rfl, p.toNat, by simp [sxTwo, hdWhole, SExpr.width]; omega, tx_stands.2 ⟨rfl, by omega⟩⟩

/-- The option decides which cut points the analysis of assignments honours: all that the traversal
recorded, or none. -/
theorem text_cuts_option {E : TravEnv} {auto : Nat → Bool} {place : TextLoc → Nat → TextLoc}
    {ord : Tracker → List (Nat × Nat)} {src : SrcDesign} {net : NetGraph} {c : Col} (hc : phase1 E src.tree = .ok c)
    (h : netlistOf E auto place ord src = .ok net) :
    (E.opts.propCuts = true → netlist E ord (seenAll ⟨E, c.cuts, auto⟩ place src) = .ok net) ∧
      (E.opts.propCuts = false → netlist E ord (seenAll ⟨E, fun _ => none, auto⟩ place src) = .ok net) := by
  have h2 := (netlistOf_seen hc h).2
  refine ⟨fun hp => ?_, fun hp => ?_⟩ <;> simpa only [Col.synCuts, hp, if_true, Bool.false_eq_true, if_false] using h2

example : netlist hdE Tracker.slots (seenAll ⟨hdE, txCol.cuts, fun _ => false⟩ atLoc (moveDesign id txSrc)) =
    .ok txNet :=
  (text_cuts_option (src := moveDesign id txSrc) tx_phase1 tx_net).1 (by rfl)

end Verif.Props

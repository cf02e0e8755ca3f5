import Verif.Props.Elab
import Verif.Props.Tick

/-! C91: without a path there is no influence over time, from the text of the design. -/
namespace Verif.Props
open Verif.Model Verif.Spec Verif.Proofs

/-- The blocks that fire, for the blocks as the analysis sees them. -/
noncomputable def seenFire {V : Type} (S : SynEnv) (text : Deferred → SDeferred) (bs : List Deferred)
    (T : (Nat → Vals V) → Nat → Deferred → Bool) (σ : Nat → Vals V) (t : Nat) (d : Deferred) : Bool :=
  open Classical in decide (∃ b ∈ bs, seen S spot text b = d ∧ T σ t b = true)

/-- The text of a design gives a meaning to what the analysis sees of it, over time. -/
theorem text_over_time {V : Type} {M : Sense V} {S : SynEnv} {boxed : Str → Str → Bool} {src : SrcDesign}
    (hc : CutsOk S.cuts) (hauto : ∀ x, S.auto x = false)
    (hok : ∀ ev ∈ eventsAll boxed S.T.opts.propCuts (seenAll S spot src), EventOk S.T.D ev)
    (hel : ∀ b ∈ blocksOf (eventsAll boxed S.T.opts.propCuts src.tree),
      elabBlock S spot (src.text b) = .ok (seen S spot src.text b))
    (hmarks : ((blocksOf (eventsAll boxed S.T.opts.propCuts src.tree)).flatMap
      fun b => marksOf (SDeferred.stmt (src.text b))).Nodup)
    (hf : TextFaithful M S src.text (blocksOf (eventsAll boxed S.T.opts.propCuts src.tree))
      (eventsAll boxed S.T.opts.propCuts (seenAll S spot src)))
    (hf' : ∀ b ∈ blocksOf (eventsAll boxed S.T.opts.propCuts src.tree), TextClocked (src.text b) →
      Suits M S (SDeferred.stmt (src.text b)))
    {T : (Nat → Vals V) → Nat → Deferred → Bool}
    (hT : TextTriggers S.T.D src.text (blocksOf (eventsAll boxed S.T.opts.propCuts src.tree)) T) :
    ∃ M' : Meaning V, ∃ T', Faithful M' S.T (eventsAll boxed S.T.opts.propCuts (seenAll S spot src)) ∧
      (∀ b ∈ blocksOf (eventsAll boxed S.T.opts.propCuts (seenAll S spot src)), Clocked b → Reflects M' b.stmt) ∧
      Triggers S.T.D (eventsAll boxed S.T.opts.propCuts (seenAll S spot src)) T' ∧
      (∀ σ, TextUnrolls M S.T src.text (blocksOf (eventsAll boxed S.T.opts.propCuts src.tree))
        (eventsAll boxed S.T.opts.propCuts (seenAll S spot src)) (T σ) σ →
        Unrolls M' S.T (eventsAll boxed S.T.opts.propCuts (seenAll S spot src)) (T' σ) σ) ∧
      (∀ b ∈ blocksOf (eventsAll boxed S.T.opts.propCuts src.tree), ∀ x j,
        (Kept (seen S spot src.text b) x j ↔ TextKept (src.text b) x j) ∧
        (ValueFrom (seen S spot src.text b) x j ↔ TextGives (src.text b) x j)) ∧
      (∀ σ σ', T σ = T σ' → T' σ = T' σ') ∧
      ∀ b ∈ blocksOf (eventsAll boxed S.T.opts.propCuts src.tree), ∀ x j, Kept (seen S spot src.text b) x j →
        ∀ σ t, T' σ t (seen S spot src.text b) = T σ t b := by
  let bs := blocksOf (eventsAll boxed S.T.opts.propCuts src.tree)
  have hbs : blocksOf (eventsAll boxed S.T.opts.propCuts (seenAll S spot src)) = bs.map (seen S spot src.text) := by
    rw [seenAll, eventsAll_swap, blocksOf_swap]
  obtain ⟨M', m1, m2, m3, m4⟩ := text_meaning_all hc hauto hok hel hmarks hf
  have hck : ∀ b ∈ bs, (Clocked (seen S spot src.text b) ↔ TextClocked (src.text b)) :=
    fun b hb => elabBlock_clocked (hel b hb)
  have hkept : ∀ b ∈ bs, ∀ x j, Kept (seen S spot src.text b) x j ↔ TextKept (src.text b) x j := by
    intro b hb x j
    constructor
    · rintro ⟨h1, h2⟩
      have h1' := (hck b hb).1 h1
      exact ⟨h1', ((m4 b hb (hf' b hb h1')).2.2 x j).1 h2⟩
    · rintro ⟨h1, h2⟩
      exact ⟨(hck b hb).2 h1, ((m4 b hb (hf' b hb h1)).2.2 x j).2 h2⟩
  have hfire : ∀ b ∈ bs, ∀ x j, Kept (seen S spot src.text b) x j →
      ∀ σ t, seenFire S src.text bs T σ t (seen S spot src.text b) = T σ t b := by
    intro b hb x j hk σ t
    have hiff : (∃ b' ∈ bs, seen S spot src.text b' = seen S spot src.text b ∧ T σ t b' = true) ↔ T σ t b = true := by
      constructor
      · rintro ⟨b', h1, h2, h3⟩
        obtain ⟨w, hw, _⟩ := hk.2
        rwa [seen_once hmarks hel hb h1 ⟨w, hw⟩ h2] at h3
      · exact fun h => ⟨b, hb, rfl, h⟩
    rw [Bool.eq_iff_iff, ← hiff]
    unfold seenFire
    classical
    exact decide_eq_true_iff
  refine ⟨M', seenFire S src.text bs T, m1, fun b' hb' hk => ?_, fun b' hb' t σ σ' h => ?_, fun σ hs => ?_,
    fun b hb x j => ⟨hkept b hb x j, ?_⟩, fun σ σ' h => by funext t d; unfold seenFire; rw [h], hfire⟩
  · rw [hbs] at hb'
    obtain ⟨b, hb, rfl⟩ := List.mem_map.1 hb'
    exact (m4 b hb (hf' b hb ((hck b hb).1 hk))).1
  · have : ∀ b ∈ bs, seen S spot src.text b = b' → T σ t b = T σ' t b := by
      rintro b hb rfl
      refine hT b hb t σ σ' fun t' ht z i hw => h t' ht z i ((elabBlock_waits (hel b hb) S.T.D z i).2 hw)
    unfold seenFire
    have hiff : (∃ b ∈ bs, seen S spot src.text b = b' ∧ T σ t b = true) ↔
        ∃ b ∈ bs, seen S spot src.text b = b' ∧ T σ' t b = true := by
      constructor
      · rintro ⟨b, h1, h2, h3⟩; exact ⟨b, h1, h2, (this b h1 h2) ▸ h3⟩
      · rintro ⟨b, h1, h2, h3⟩; exact ⟨b, h1, h2, (this b h1 h2).symm ▸ h3⟩
    classical
    exact decide_eq_decide.2 hiff
  · refine ⟨fun t => m2 _ (hs.stable t), fun t b' hb' x j hk => ?_⟩
    rw [hbs] at hb'
    obtain ⟨b, hb, rfl⟩ := List.mem_map.1 hb'
    have hk' := (hkept b hb x j).1 hk
    rw [hfire b hb x j hk σ t, (m4 b hb (hf' b hb hk'.1)).2.1]
    exact hs.step t b hb x j hk'
  · constructor
    · rintro (h | ⟨h1, h2⟩)
      · exact .inl ((hkept b hb x j).1 h)
      · have h1' : ¬ TextClocked (src.text b) := fun h => h1 ((hck b hb).2 h)
        exact .inr ⟨h1', (m3 b hb h1' x j).1 h2⟩
    · rintro (h | ⟨h1, h2⟩)
      · exact .inl ((hkept b hb x j).2 h)
      · exact .inr ⟨fun h => h1 ((hck b hb).1 h), (m3 b hb h1 x j).2 h2⟩

/-- C91. C90 for the text of a design, with its registers: edge-triggered blocks schedule, for the bits on the
left of their non-blocking assignments, the values of the right sides, which follow the expressions bit by
bit. The text is observed twice, with the same values of its registers at the beginning; whether a block fires
depends, in any way, on the values that the signals in its event list have had until then. If a bit that a
block gives its value ever differs, then at this time or before, a bit that neither a block assigns nor a
connection supplies has differed, and a path leads from a node that reads it, or a register that waits for it,
to the node of the register of the bit or of an assignment that can leave it its value. The text of the design
is that of `src` with its places changed by `f`; in `src` every assignment, conditional and case has a place
of its own. Missing: dynamic selects on the left or in assignments that are aligned (C72), and designs that
are not regular or not timed (C90). -/
theorem text_influence_over_time_partial {V : Type} {M : Sense V} {E : TravEnv} {auto : Nat → Bool}
    (hauto : ∀ x, auto x = false) {boxed : Str → Str → Bool} {ord : Tracker → List (Nat × Nat)} {src : SrcDesign}
    {f : TextLoc → TextLoc} {c : Col} {net : NetGraph} (hc : phase1 E src.tree = .ok c)
    (hn : netlistOf E auto atLoc ord (moveDesign f src) = .ok net)
    (hb : Buildable E boxed ord (seenAll ⟨E, c.synCuts E, auto⟩ atLoc (moveDesign f src)))
    (hmarks : ((blocksOf (eventsAll boxed E.opts.propCuts src.tree)).flatMap
      fun b => marksOf (SDeferred.stmt (src.text b))).Nodup)
    (hl : combLoops net = [])
    (hr : Regular E (eventsAll boxed E.opts.propCuts (seenAll ⟨E, c.synCuts E, auto⟩ spot src)) c.cuts)
    (ht : Timed E (eventsAll boxed E.opts.propCuts (seenAll ⟨E, c.synCuts E, auto⟩ spot src)) c.cuts)
    (hg : WholeClocks E.D (eventsAll boxed E.opts.propCuts (seenAll ⟨E, c.synCuts E, auto⟩ spot src)))
    (hf : TextFaithful M ⟨E, c.synCuts E, auto⟩ src.text (blocksOf (eventsAll boxed E.opts.propCuts src.tree))
      (eventsAll boxed E.opts.propCuts (seenAll ⟨E, c.synCuts E, auto⟩ spot src)))
    (hf' : ∀ b ∈ blocksOf (eventsAll boxed E.opts.propCuts src.tree), TextClocked (src.text b) →
      Suits M ⟨E, c.synCuts E, auto⟩ (SDeferred.stmt (src.text b)))
    {T : (Nat → Vals V) → Nat → Deferred → Bool}
    (hT : TextTriggers E.D src.text (blocksOf (eventsAll boxed E.opts.propCuts src.tree)) T) {σ σ' : Nat → Vals V}
    (hs : TextUnrolls M E src.text (blocksOf (eventsAll boxed E.opts.propCuts src.tree))
      (eventsAll boxed E.opts.propCuts (seenAll ⟨E, c.synCuts E, auto⟩ spot src)) (T σ) σ)
    (hs' : TextUnrolls M E src.text (blocksOf (eventsAll boxed E.opts.propCuts src.tree))
      (eventsAll boxed E.opts.propCuts (seenAll ⟨E, c.synCuts E, auto⟩ spot src)) (T σ') σ')
    (hi : ∀ b ∈ blocksOf (eventsAll boxed E.opts.propCuts src.tree), ∀ x j, TextKept (src.text b) x j →
      σ 0 x j = σ' 0 x j)
    {b : Deferred} (hbm : b ∈ blocksOf (eventsAll boxed E.opts.propCuts src.tree)) {x j t : Nat}
    (hv : TextGives (src.text b) x j) (hne : σ t x j ≠ σ' t x j) :
    ∃ net', netlist E ord (seenAll ⟨E, c.synCuts E, auto⟩ spot src) = .ok net' ∧ net = moveNet (f ∘ unspot) net' ∧
      ∃ t' ≤ t, ∃ s q z i u,
      Source E (eventsAll boxed E.opts.propCuts (seenAll ⟨E, c.synCuts E, auto⟩ spot src)) c.cuts s q ∧
      ¬ Held E (eventsAll boxed E.opts.propCuts (seenAll ⟨E, c.synCuts E, auto⟩ spot src)) c.cuts s q ∧
      (∀ k e, ¬ Wired (eventsAll boxed E.opts.propCuts (seenAll ⟨E, c.synCuts E, auto⟩ spot src)) s q k e) ∧
      σ t' s q ≠ σ' t' s q ∧
      Brings E (eventsAll boxed E.opts.propCuts (seenAll ⟨E, c.synCuts E, auto⟩ spot src)) s q z i ∧
      Heeds E.D (eventsAll boxed E.opts.propCuts (seenAll ⟨E, c.synCuts E, auto⟩ spot src)) z i u ∧
      ∃ m n, IsAt E.D net' u m ∧ GivenAt E.D net' (seen ⟨E, c.synCuts E, auto⟩ spot src.text b) x j n ∧
        Reach (Joined net) m n := by
  obtain ⟨c', h1, h2, h3, h4, h5, h6, h7⟩ := text_built hc hn hb hmarks
  obtain ⟨M', T', m1, m2, m3, m4, m5, _⟩ :=
    text_over_time (S := ⟨E, c.synCuts E, auto⟩) h5 hauto h6 h7 hmarks hf hf' hT
  have hbs : blocksOf (eventsAll boxed E.opts.propCuts (seenAll ⟨E, c.synCuts E, auto⟩ spot src)) =
      (blocksOf (eventsAll boxed E.opts.propCuts src.tree)).map (seen ⟨E, c.synCuts E, auto⟩ spot src.text) := by
    rw [seenAll, eventsAll_swap, blocksOf_swap]
  obtain ⟨net', g1, g2, t', g3, s, q, z, i, u, g4, g5, g6, g7, g8⟩ :=
    influence_through_clocks_partial hb h1 h3 h4 hl (h2 ▸ hr) (h2 ▸ ht) hg m1 m2 m3 (m4 σ hs) (m4 σ' hs')
      (fun b' hb' x j hk => by
        rw [hbs] at hb'
        obtain ⟨b, hb, rfl⟩ := List.mem_map.1 hb'
        exact hi b hb x j ((m5 b hb x j).1.1 hk))
      (hbs ▸ List.mem_map.2 ⟨b, hbm, rfl⟩) ((m5 b hbm x j).2.2 hv) hne
  refine ⟨net', g1, g2, t', g3, s, q, z, i, u, h2 ▸ g4, h2 ▸ g5, fun k e hwd => ?_, g6, g7, g8⟩
  exact g6 (wired_constant (S := ⟨E, c.synCuts E, auto⟩) h6 hf (hs.stable t') (hs'.stable t') hwd g4.2)

/-- C91, from input ports to an output port, in terms of the answers of the tool: if it reports no
combinational loop, and answers every query for a path from a node of an input port with a bit that ever
differs (also one that serves as a clock) to a node of output port `p` with bit `j` by the empty path, then bit
`j` of the output is always the same. -/
theorem text_same_over_time_partial {V : Type} {M : Sense V} {E : TravEnv} {auto : Nat → Bool}
    (hauto : ∀ x, auto x = false) {boxed : Str → Str → Bool} {ord : Tracker → List (Nat × Nat)} {src : SrcDesign}
    {f : TextLoc → TextLoc} {c : Col} {net : NetGraph} (hc : phase1 E src.tree = .ok c)
    (hn : netlistOf E auto atLoc ord (moveDesign f src) = .ok net)
    (hb : Buildable E boxed ord (seenAll ⟨E, c.synCuts E, auto⟩ atLoc (moveDesign f src)))
    (hmarks : ((blocksOf (eventsAll boxed E.opts.propCuts src.tree)).flatMap
      fun b => marksOf (SDeferred.stmt (src.text b))).Nodup)
    (hl : combLoops net = [])
    (hr : Regular E (eventsAll boxed E.opts.propCuts (seenAll ⟨E, c.synCuts E, auto⟩ spot src)) c.cuts)
    (ht : Timed E (eventsAll boxed E.opts.propCuts (seenAll ⟨E, c.synCuts E, auto⟩ spot src)) c.cuts)
    (hg : WholeClocks E.D (eventsAll boxed E.opts.propCuts (seenAll ⟨E, c.synCuts E, auto⟩ spot src)))
    (hf : TextFaithful M ⟨E, c.synCuts E, auto⟩ src.text (blocksOf (eventsAll boxed E.opts.propCuts src.tree))
      (eventsAll boxed E.opts.propCuts (seenAll ⟨E, c.synCuts E, auto⟩ spot src)))
    (hf' : ∀ b ∈ blocksOf (eventsAll boxed E.opts.propCuts src.tree), TextClocked (src.text b) →
      Suits M ⟨E, c.synCuts E, auto⟩ (SDeferred.stmt (src.text b)))
    {T : (Nat → Vals V) → Nat → Deferred → Bool}
    (hT : TextTriggers E.D src.text (blocksOf (eventsAll boxed E.opts.propCuts src.tree)) T) {σ σ' : Nat → Vals V}
    (hs : TextUnrolls M E src.text (blocksOf (eventsAll boxed E.opts.propCuts src.tree))
      (eventsAll boxed E.opts.propCuts (seenAll ⟨E, c.synCuts E, auto⟩ spot src)) (T σ) σ)
    (hs' : TextUnrolls M E src.text (blocksOf (eventsAll boxed E.opts.propCuts src.tree))
      (eventsAll boxed E.opts.propCuts (seenAll ⟨E, c.synCuts E, auto⟩ spot src)) (T σ') σ')
    (hi : ∀ b ∈ blocksOf (eventsAll boxed E.opts.propCuts src.tree), ∀ x j, TextKept (src.text b) x j →
      σ 0 x j = σ' 0 x j)
    (hp : ∀ t s q, Source E (eventsAll boxed E.opts.propCuts (seenAll ⟨E, c.synCuts E, auto⟩ spot src)) c.cuts s q →
      ¬ Held E (eventsAll boxed E.opts.propCuts (seenAll ⟨E, c.synCuts E, auto⟩ spot src)) c.cuts s q →
      (∀ k e, ¬ Wired (eventsAll boxed E.opts.propCuts (seenAll ⟨E, c.synCuts E, auto⟩ spot src)) s q k e) →
      σ t s q ≠ σ' t s q → Bare (eventsAll boxed E.opts.propCuts (seenAll ⟨E, c.synCuts E, auto⟩ spot src)) s ∧
        E.D.kind s ≠ .modportPort ∧
        ∃ p, LastSupply (eventsAll boxed E.opts.propCuts (seenAll ⟨E, c.synCuts E, auto⟩ spot src)) s q p)
    {b : Deferred} (hbm : b ∈ blocksOf (eventsAll boxed E.opts.propCuts src.tree)) {x j : Nat}
    (hv : TextGives (src.text b) x j) {p : PortDecl}
    (hpo : .port p ∈ eventsAll boxed E.opts.propCuts (seenAll ⟨E, c.synCuts E, auto⟩ spot src))
    (hx : E.D.port x = some p.sym) {lo hi' : Int} (hsp : Spans E c.cuts p x lo hi')
    (hin : ∀ w ∈ allWrites (seen ⟨E, c.synCuts E, auto⟩ spot src.text b).stmt, w.sym = x → InRng w.bounds j →
      lo ≤ w.bounds.lower ∧ w.bounds.upper ≤ hi')
    (hno : ∀ (t s q n m : Nat) p',
      LastSupply (eventsAll boxed E.opts.propCuts (seenAll ⟨E, c.synCuts E, auto⟩ spot src)) s q p' →
      σ t s q ≠ σ' t s q → PortNode E.D net p' q n → PortNode E.D net p j m →
      p'.dir ≠ p.dir ∧ findPath net n m = some []) (t : Nat) : σ t x j = σ' t x j := by
  obtain ⟨c', h1, h2, h3, h4, h5, h6, h7⟩ := text_built hc hn hb hmarks
  obtain ⟨M', T', m1, m2, m3, m4, m5, _⟩ :=
    text_over_time (S := ⟨E, c.synCuts E, auto⟩) h5 hauto h6 h7 hmarks hf hf' hT
  have hbs : blocksOf (eventsAll boxed E.opts.propCuts (seenAll ⟨E, c.synCuts E, auto⟩ spot src)) =
      (blocksOf (eventsAll boxed E.opts.propCuts src.tree)).map (seen ⟨E, c.synCuts E, auto⟩ spot src.text) := by
    rw [seenAll, eventsAll_swap, blocksOf_swap]
  refine no_path_same_clocked_partial hb h1 h3 h4 hl (h2 ▸ hr) (h2 ▸ ht) hg m1 m2 m3 (m4 σ hs) (m4 σ' hs')
    (fun b' hb' x j hk => ?_) (fun t s q g1 g2 g3 => ?_) (hbs ▸ List.mem_map.2 ⟨b, hbm, rfl⟩)
    ((m5 b hbm x j).2.2 hv) hpo hx (h2 ▸ hsp) hin hno t
  · rw [hbs] at hb'
    obtain ⟨b, hb, rfl⟩ := List.mem_map.1 hb'
    exact hi b hb x j ((m5 b hb x j).1.1 hk)
  · exact hp t s q (h2 ▸ g1) (h2 ▸ g2) (fun k e hwd => g3 (wired_constant (S := ⟨E, c.synCuts E, auto⟩) h6 hf
      (hs.stable t) (hs'.stable t) hwd g1.2)) g3

/-! ### A concrete case

The design of C90 from its text:
```
module t(input [7:0] a, c, output [7:0] y, w);
  assign k = a;                      // line 1
  always_ff @(posedge k) q <= c;     // line 2
  assign y = q;                      // line 4
  assign w = c;                      // line 5
endmodule
``` -/

def tcAsg (n y z : Nat) : SAsg := { loc := tkAt n, origin := tkAt n, lhs := hdWhole y, rhs := hdWhole z }

def tcText : Deferred → SDeferred
  | .procedural .. => .procedural .alwaysFF (.timed (.signalEvent ⟨.posEdge, some 10⟩)) (.assign false (tcAsg 2 2 3))
  | .continuous l _ => .continuous (if l.line = 1 then tcAsg 1 10 0 else if l.line = 4 then tcAsg 4 1 2 else tcAsg 5 4 3)

def tcSrc : SrcDesign := ⟨tkTop, tcText⟩
def tcNet : NetGraph := (netlistOf hdE (fun _ => false) atLoc Tracker.slots (moveDesign id tcSrc)).toOption.getD {}

theorem tc_cuts : tkCol.cuts = fun _ => none := by
  obtain ⟨c, a1, a2, _⟩ := walked tk_elab
  have hcc : tkCol = c := Except.ok.inj (tk_phase1.symm.trans a1)
  rw [hcc]
  refine steps_uncut _ (fine_start hdE.D) ?_ a2.run
  intro ev hev
  refine ⟨tk_elab.ok ev hev, ?_⟩
  rw [tk_events] at hev
  simp [tkEvents] at hev
  rcases hev with rfl | rfl | rfl | rfl | rfl | rfl | rfl | rfl <;> simp

theorem tc_env : (⟨hdE, tkCol.synCuts hdE, fun _ => false⟩ : SynEnv) = ⟨hdE, fun _ => none, fun _ => false⟩ := by
  rw [Col.synCuts, tc_cuts]
  simp

theorem tc_elab (b : Deferred) (hb : b ∈ [tkB0, tkB1, tkB2, tkB3]) :
    elabBlock ⟨hdE, fun _ => none, fun _ => false⟩ spot (tcText b) = .ok b ∧
    elabBlock ⟨hdE, fun _ => none, fun _ => false⟩ atLoc (moveTextBlock id (tcText b)) = .ok b := by
  simp at hb
  rcases hb with rfl | rfl | rfl | rfl <;> exact ⟨rfl, rfl⟩

theorem tc_seen : seenAll ⟨hdE, tkCol.synCuts hdE, fun _ => false⟩ spot tcSrc = tkTop := by
  rw [tc_env]
  simp [seenAll, tcSrc, tkTop, withBlocks, withBlock, seen, tc_elab]

theorem tc_seen_at : seenAll ⟨hdE, tkCol.synCuts hdE, fun _ => false⟩ atLoc (moveDesign id tcSrc) = tkTop := by
  rw [tc_env]
  simp [seenAll, moveDesign, tcSrc, tkTop, withBlocks, withBlock, seen, tc_elab]

theorem tc_blocks : blocksOf (eventsAll hdBoxed hdE.opts.propCuts tcSrc.tree) = [tkB0, tkB1, tkB2, tkB3] := by
  rw [show tcSrc.tree = tkTop from rfl, tk_events, tk_blocks]

theorem tc_net : netlistOf hdE (fun _ => false) atLoc Tracker.slots (moveDesign id tcSrc) = .ok tcNet := by
  have h : (netlistOf hdE (fun _ => false) atLoc Tracker.slots (moveDesign id tcSrc)).toOption.isSome = true := by
    decide +kernel
  rw [tcNet]
  generalize netlistOf hdE (fun _ => false) atLoc Tracker.slots (moveDesign id tcSrc) = r at h
  cases r with
  | error e => cases h
  | ok net => rfl

theorem tc_loops : combLoops tcNet = [] := by decide +kernel

/-- What the lines compute. -/
def tcM : Sense Bool where
  bit := fun b => b == .one
  value := fun loc ρ k => if loc.line = 1 then ρ 0 k else if loc.line = 4 then ρ 2 k else ρ 3 k
  pick := fun _ _ _ _ => false
  feed := fun _ _ _ => false

/-- The assignment of one whole signal to another. -/
theorem tc_suits {S : SynEnv} {n y z : Nat} {b : Bool} (h : ∀ ρ k, tcM.value (tkAt n) ρ k = ρ z k) :
    Suits tcM S (.assign b (tcAsg n y z)) := by
  refine ⟨⟨rfl, rfl, (tx_whole y).2.2 _, (tx_whole z).2.2 _, rfl, (tx_whole y).1, (tx_whole y).2.1,
    fun _ _ => (tx_whole z).2.1⟩, ?_⟩
  refine .inl ⟨rfl, rfl, z, rfl, fun ρ k _ => ?_⟩
  rw [Nat.zero_add]
  exact h ρ k

theorem tc_all {S : SynEnv} (b : Deferred) (hb : b ∈ [tkB0, tkB1, tkB2, tkB3]) : Suits tcM S (SDeferred.stmt (tcText b)) := by
  simp at hb
  rcases hb with rfl | rfl | rfl | rfl
  · exact tc_suits (b := true) (n := 1) (z := 0) fun _ _ => rfl
  · exact tc_suits (b := false) (n := 2) (z := 3) fun _ _ => rfl
  · exact tc_suits (b := true) (n := 4) (z := 2) fun _ _ => rfl
  · exact tc_suits (b := true) (n := 5) (z := 3) fun _ _ => rfl

theorem tc_no_wire {x j : Nat} {k : Conn} {e : SExpr} : ¬ Wired tkEvents x j k e := by
  rintro ⟨p, _, h, _⟩
  exact tk_no_conn h

theorem tc_faithful {S : SynEnv} : TextFaithful tcM S tcText [tkB0, tkB1, tkB2, tkB3] tkEvents where
  blocks := fun b hb _ => tc_all b hb
  inlets := fun _ _ _ _ h => absurd h tc_no_wire

theorem tc_clocked {b : Deferred} (hb : b ∈ [tkB0, tkB1, tkB2, tkB3]) : TextClocked (tcText b) ↔ b = tkB1 := by
  rw [← elabBlock_clocked (tc_elab b hb).1]
  constructor
  · exact fun h => tk_reg (by rw [tk_blocks]; exact hb) h
  · rintro rfl; exact tk_clocked

theorem tc_free {b : Deferred} (hb : b ∈ [tkB0, tkB2, tkB3]) : ¬ TextClocked (tcSrc.text b) := by
  intro h
  simp at hb
  rcases hb with rfl | rfl | rfl <;> exact h

theorem tc_triggers : TextTriggers hdE.D tcText [tkB0, tkB1, tkB2, tkB3] tkFire := by
  intro b hb t σ σ' h
  exact tk_triggers b (by rw [tk_blocks]; exact hb) t σ σ' fun t' ht z i hw =>
    h t' ht z i ((elabBlock_waits (tc_elab b hb).1 hdE.D z i).1 hw)

/-- A whole signal is assigned. -/
theorem tc_put {F : Vals Bool → Nat → Bool} {ρ ν : Vals Bool} {y : Nat} {p : Int} (hp : 0 ≤ p ∧ p ≤ 7) :
    putBits F (hdWhole y) ρ y p = F ρ p.toNat ∧ putInto F (hdWhole y) ρ ν y p = F ρ p.toNat := by
  have e : (hdWhole y).width = 8 := rfl
  simp only [putBits, putInto, e, tx_last hp, and_self]

theorem tc_bits {y x : Nat} {p : Int} (h : ∃ k, k < (hdWhole y).width ∧ StandsFor (hdWhole y) k x p) :
    y = x ∧ 0 ≤ p ∧ p ≤ 7 := by
  obtain ⟨k, h1, h2⟩ := h
  obtain ⟨h3, h4⟩ := tx_stands.1 h2
  simp only [hdWhole, SExpr.width] at h1
  exact ⟨h3, by omega, by omega⟩

theorem tc_solves (v : Bool) (t : Nat) : TextSolves tcM hdE tcText [tkB0, tkB1, tkB2, tkB3] tkEvents (tkVals v t) where
  blocks := by
    intro b hb hc x p ha
    have hne : b ≠ tkB1 := fun h => hc ((tc_clocked hb).2 h)
    simp at hb
    rcases hb with rfl | rfl | rfl | rfl
    · obtain ⟨rfl, hp⟩ := tc_bits ha.2
      show _ = putBits (tcM.value (tkAt 1)) (hdWhole 10) (tkVals v t) 10 p
      rw [(tc_put (ν := tkVals v t) hp).1]
      simp [tcM, tkAt, tkVals, hp]
      omega
    · exact absurd rfl hne
    · obtain ⟨rfl, hp⟩ := tc_bits ha.2
      show _ = putBits (tcM.value (tkAt 4)) (hdWhole 1) (tkVals v t) 1 p
      rw [(tc_put (ν := tkVals v t) hp).1]
      simp [tcM, tkAt, tkVals, hp]
      omega
    · obtain ⟨rfl, hp⟩ := tc_bits ha.2
      show _ = putBits (tcM.value (tkAt 5)) (hdWhole 4) (tkVals v t) 4 p
      rw [(tc_put (ν := tkVals v t) hp).1]
      simp [tcM, tkAt, tkVals, hp]
      omega
  inlets := fun _ _ _ _ h => absurd h tc_no_wire
  outlets := by
    rintro x j y q ⟨p, k, e, _, h, _⟩
    exact absurd h.1 tk_no_conn

theorem tc_kept {b : Deferred} (hb : b ∈ [tkB0, tkB1, tkB2, tkB3]) {x j : Nat} (h : TextKept (tcText b) x j) :
    b = tkB1 ∧ x = 2 ∧ j ≤ 7 := by
  obtain rfl := (tc_clocked hb).1 h.1
  obtain ⟨rfl, hp⟩ := tc_bits h.2.2
  exact ⟨rfl, rfl, by omega⟩

theorem tc_unrolls (v : Bool) :
    TextUnrolls tcM hdE tcText [tkB0, tkB1, tkB2, tkB3] tkEvents (tkFire (tkVals v)) (tkVals v) where
  stable := tc_solves v
  step := by
    intro t b hb x j hk
    obtain ⟨rfl, rfl, hj⟩ := tc_kept hb hk
    have h3 : (0 : Int) ≤ j ∧ (j : Int) ≤ 7 := by omega
    have hl : laterText tcM (SDeferred.stmt (tcText tkB1)) (fun _ => true) (tkVals v t) (tkVals v t) 2 j = true := by
      show putInto (tcM.value (tkAt 2)) (hdWhole 2) (tkVals v t) (tkVals v t) 2 j = true
      rw [(tc_put h3).2]
      simp [tcM, tkAt, tkVals, h3]
    rw [hl]
    rcases t with _ | _ | t
    · simp [tkFire, tkVals, tkB1]
    · cases v <;> simp [tkFire, tkVals, tkB1, h3]
    · cases v <;> simp [tkFire, tkVals, tkB1, h3]

theorem tc_init : ∀ b ∈ [tkB0, tkB1, tkB2, tkB3], ∀ x j, TextKept (tcText b) x j → tkVals false 0 x j = tkVals true 0 x j := by
  intro b hb x j hk
  obtain ⟨rfl, rfl, hj⟩ := tc_kept hb hk
  simp [tkVals]

theorem tc_marks : (([tkB0, tkB1, tkB2, tkB3] : List Deferred).flatMap fun b => marksOf (SDeferred.stmt (tcText b))).Nodup := by
  decide

/-- Output `y` differs at time 2 because of the clock, so there is a path to its assignment. -/
example := text_influence_over_time_partial (M := tcM) (E := hdE) (auto := fun _ => false) (fun _ => rfl) (boxed := hdBoxed)
    (src := tcSrc) (f := id) tk_phase1 tc_net (by rw [tc_seen_at]; exact tk_build) (by rw [tc_blocks]; exact tc_marks)
    tc_loops (by rw [tc_seen, tk_events]; exact tk_regular _) (by rw [tc_seen, tk_events]; exact tk_timed _)
    (by rw [tc_seen, tk_events]; exact tk_clocks) (by rw [tc_seen, tk_events, tc_blocks]; exact tc_faithful)
    (by rw [tc_blocks]; exact fun b hb _ => tc_all b hb) (T := tkFire) (by rw [tc_blocks]; exact tc_triggers)
    (by rw [tc_seen, tk_events, tc_blocks]; exact tc_unrolls false)
    (by rw [tc_seen, tk_events, tc_blocks]; exact tc_unrolls true) (by rw [tc_blocks]; exact tc_init) (b := tkB2)
    (by rw [tc_blocks]; simp) (x := 1) (j := 0) (t := 2)
    (.inr ⟨tc_free (by simp), rfl, 0, by decide, by decide⟩) (by decide)

/-- There is no path from port `a` to port `w`, so `w` is always the same. -/
example (t : Nat) : tkVals false t 4 0 = tkVals true t 4 0 :=
  text_same_over_time_partial (M := tcM) (E := hdE) (auto := fun _ => false) (fun _ => rfl) (boxed := hdBoxed)
    (src := tcSrc) (f := id) tk_phase1 tc_net (by rw [tc_seen_at]; exact tk_build) (by rw [tc_blocks]; exact tc_marks)
    tc_loops (by rw [tc_seen, tk_events]; exact tk_regular _) (by rw [tc_seen, tk_events]; exact tk_timed _)
    (by rw [tc_seen, tk_events]; exact tk_clocks) (by rw [tc_seen, tk_events, tc_blocks]; exact tc_faithful)
    (by rw [tc_blocks]; exact fun b hb _ => tc_all b hb) (T := tkFire) (by rw [tc_blocks]; exact tc_triggers)
    (σ := tkVals false) (σ' := tkVals true) (by rw [tc_seen, tk_events, tc_blocks]; exact tc_unrolls false)
    (by rw [tc_seen, tk_events, tc_blocks]; exact tc_unrolls true) (by rw [tc_blocks]; exact tc_init)
    (by rw [tc_seen, tk_events]; exact fun t s q h1 h2 _ h3 => tk_inputs t s q h1 h2 h3) (b := tkB3)
    (by rw [tc_blocks]; simp) (x := 4) (j := 0)
    (.inr ⟨tc_free (by simp), rfl, 0, by decide, by decide⟩) (p := hdOut 23 4)
    (by rw [tc_seen, tk_events]; simp [tkEvents]) rfl (lo := 0) (hi' := 7) tk_spans
    (by
      rw [tc_env]
      simp only [seen, show tcSrc.text = tcText from rfl, (tc_elab tkB3 (by simp)).1]
      intro w hw _ _; simp [tkB3, Deferred.stmt, allWrites, asgWrites, dsRef] at hw; subst hw; decide)
    (by
      rw [tc_seen, tk_events]
      intro t s q n m p' h1 h2 h3 h4
      have hs : s ≠ 3 := by rintro rfl; exact h2 rfl
      obtain ⟨rfl, rfl⟩ := tk_in h1 hs
      obtain ⟨n1, x, b, hx, _, n2⟩ := h3
      obtain ⟨m1, y, b', hy, _, m2⟩ := h4
      cases hx; cases hy
      exact ⟨by decide, (by decide +kernel : ∀ n ∈ tcNet.g.nodes, ∀ m ∈ tcNet.g.nodes,
        portName (tcNet.data n) = some ['a'] → portName (tcNet.data m) = some ['e'] → findPath tcNet n m = some [])
          n n1 m m1 (by rw [n2]; rfl) (by rw [m2]; rfl)⟩) t

end Verif.Props

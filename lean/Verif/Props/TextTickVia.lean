import Verif.Props.TextIface
import Verif.Props.TickVia

/-! C105 from the text of the design. -/
namespace Verif.Props
open Verif.Model Verif.Spec Verif.Proofs

/-- C105 for the text of a design: edge-triggered blocks schedule, for the bits on the left of their non-blocking
assignments, the values of the right sides, which follow the expressions bit by bit; modport ports have the values of
what they stand for; whether a block fires depends, in any way, on the values that the signals in its event list have
had until then, and those that write registers on interfaces fire at the same times. The text is observed twice, with
the same values of its registers at the beginning. If a bit that a block gives its value ever differs, then at this
time or before, a bit that comes from outside has differed, and a path leads from a node that reads it, or a register
that waits for it, to the node of the register of the bit or of an assignment that can leave it its value. Missing:
dynamic selects on the left or in assignments that are aligned (C72), and what C105 lacks for what the analysis sees. -/
theorem text_clocks_via_partial {V : Type} {M : Sense V} {E : TravEnv} {auto : Nat → Bool}
    (hauto : ∀ x, auto x = false) {boxed : Str → Str → Bool} {ord : Tracker → List (Nat × Nat)} {src : SrcDesign}
    {f : TextLoc → TextLoc} {c : Col} {net : NetGraph} (hc : phase1 E src.tree = .ok c)
    (hn : netlistOf E auto atLoc ord (moveDesign f src) = .ok net)
    (hb : Buildable E boxed ord (seenAll ⟨E, c.synCuts E, auto⟩ atLoc (moveDesign f src)))
    (hmarks : ((blocksOf (eventsAll boxed E.opts.propCuts src.tree)).flatMap
      fun b => marksOf (SDeferred.stmt (src.text b))).Nodup)
    (hl : combLoops net = [])
    {via : Nat → Nat → Nat × Nat} (hr : RegularVia E (eventsAll boxed E.opts.propCuts (seenAll ⟨E, c.synCuts E, auto⟩ spot src)) c.cuts via)
    (ht : TimedVia E (eventsAll boxed E.opts.propCuts (seenAll ⟨E, c.synCuts E, auto⟩ spot src)) c.cuts via)
    (ho : ClocksOff E (eventsAll boxed E.opts.propCuts (seenAll ⟨E, c.synCuts E, auto⟩ spot src)) c.cuts)
    (hg : WholeClocks E.D (eventsAll boxed E.opts.propCuts (seenAll ⟨E, c.synCuts E, auto⟩ spot src)))
    (hf : TextFaithful M ⟨E, c.synCuts E, auto⟩ src.text (blocksOf (eventsAll boxed E.opts.propCuts src.tree))
      (eventsAll boxed E.opts.propCuts (seenAll ⟨E, c.synCuts E, auto⟩ spot src)))
    (hf' : ∀ b ∈ blocksOf (eventsAll boxed E.opts.propCuts src.tree), TextClocked (src.text b) →
      Suits M ⟨E, c.synCuts E, auto⟩ (SDeferred.stmt (src.text b)))
    {T : (Nat → Vals V) → Nat → Deferred → Bool}
    (hT : TextTriggers E.D src.text (blocksOf (eventsAll boxed E.opts.propCuts src.tree)) T) {σ σ' : Nat → Vals V}
    (hs : TextUnrolls M E src.text (blocksOf (eventsAll boxed E.opts.propCuts src.tree))
      (eventsAll boxed E.opts.propCuts (seenAll ⟨E, c.synCuts E, auto⟩ spot src)) (T σ) σ)
    (hs' : TextUnrolls M E src.text (blocksOf (eventsAll boxed E.opts.propCuts src.tree))
      (eventsAll boxed E.opts.propCuts (seenAll ⟨E, c.synCuts E, auto⟩ spot src)) (T σ') σ')
    (hw : ∀ t, Shared E (eventsAll boxed E.opts.propCuts (seenAll ⟨E, c.synCuts E, auto⟩ spot src)) via (σ t))
    (hw' : ∀ t, Shared E (eventsAll boxed E.opts.propCuts (seenAll ⟨E, c.synCuts E, auto⟩ spot src)) via (σ' t))
    (ha : ∀ b ∈ blocksOf (eventsAll boxed E.opts.propCuts src.tree), ∀ x j, TextKept (src.text b) x j →
      OnIface E (eventsAll boxed E.opts.propCuts (seenAll ⟨E, c.synCuts E, auto⟩ spot src)) x → ∀ t, T σ t b = T σ' t b)
    (hi : ∀ b ∈ blocksOf (eventsAll boxed E.opts.propCuts src.tree), ∀ x j, TextKept (src.text b) x j →
      σ 0 x j = σ' 0 x j)
    {b : Deferred} (hbm : b ∈ blocksOf (eventsAll boxed E.opts.propCuts src.tree)) {x j t : Nat}
    (hv : TextGives (src.text b) x j) (hne : σ t x j ≠ σ' t x j) :
    ∃ net', netlist E ord (seenAll ⟨E, c.synCuts E, auto⟩ spot src) = .ok net' ∧ net = moveNet (f ∘ unspot) net' ∧
      ∃ t' ≤ t, ∃ s q z i u,
      OuterSource E (eventsAll boxed E.opts.propCuts (seenAll ⟨E, c.synCuts E, auto⟩ spot src)) c.cuts via s q ∧
      ¬ HeldVia E (eventsAll boxed E.opts.propCuts (seenAll ⟨E, c.synCuts E, auto⟩ spot src)) c.cuts via s q ∧
      (∀ k e, ¬ Wired (eventsAll boxed E.opts.propCuts (seenAll ⟨E, c.synCuts E, auto⟩ spot src)) s q k e) ∧
      σ t' s q ≠ σ' t' s q ∧
      Brings E (eventsAll boxed E.opts.propCuts (seenAll ⟨E, c.synCuts E, auto⟩ spot src)) s q z i ∧
      Heeds E.D (eventsAll boxed E.opts.propCuts (seenAll ⟨E, c.synCuts E, auto⟩ spot src)) z i u ∧
      ∃ m n, IsAt E.D net' u m ∧ GivenVia E (eventsAll boxed E.opts.propCuts (seenAll ⟨E, c.synCuts E, auto⟩ spot src)) net'
          (seen ⟨E, c.synCuts E, auto⟩ spot src.text b) x j n ∧
        Reach (Joined net) m n := by
  obtain ⟨c', h1, h2, h3, h4, h5, h6, h7⟩ := text_built hc hn hb hmarks
  obtain ⟨M', T', m1, m2, m3, m4, m5, _, m7⟩ :=
    text_over_time (S := ⟨E, c.synCuts E, auto⟩) h5 hauto h6 h7 hmarks hf hf' hT
  have hbs : blocksOf (eventsAll boxed E.opts.propCuts (seenAll ⟨E, c.synCuts E, auto⟩ spot src)) =
      (blocksOf (eventsAll boxed E.opts.propCuts src.tree)).map (seen ⟨E, c.synCuts E, auto⟩ spot src.text) := by
    rw [seenAll, eventsAll_swap, blocksOf_swap]
  obtain ⟨net', g1, g2, t', g3, s, q, z, i, u, g4, g5, g6, g7, g8⟩ :=
    influence_through_clocks_via_partial hb h1 h3 h4 hl (h2 ▸ hr) (h2 ▸ ht) (h2 ▸ ho) hg m1 m2 m3 (m4 σ hs) (m4 σ' hs') hw hw'
      (fun b' hb' x j hk hon t => by
        rw [hbs] at hb'
        obtain ⟨b, hb, rfl⟩ := List.mem_map.1 hb'
        rw [m7 b hb x j hk, m7 b hb x j hk]
        exact ha b hb x j ((m5 b hb x j).1.1 hk) hon t)
      (fun b' hb' x j hk => by
        rw [hbs] at hb'
        obtain ⟨b, hb, rfl⟩ := List.mem_map.1 hb'
        exact hi b hb x j ((m5 b hb x j).1.1 hk))
      (hbs ▸ List.mem_map.2 ⟨b, hbm, rfl⟩) ((m5 b hbm x j).2.2 hv) hne
  refine ⟨net', g1, g2, t', g3, s, q, z, i, u, h2 ▸ g4, h2 ▸ g5, fun k e hwd => ?_, g6, g7, g8⟩
  exact g6 (wired_constant (S := ⟨E, c.synCuts E, auto⟩) h6 hf (hs.stable t') (hs'.stable t') hwd g4.1.2)

/-- C105, from input ports to an output port, for the text, in terms of the answers of the tool. -/
theorem text_same_clocks_via_partial {V : Type} {M : Sense V} {E : TravEnv} {auto : Nat → Bool}
    (hauto : ∀ x, auto x = false) {boxed : Str → Str → Bool} {ord : Tracker → List (Nat × Nat)} {src : SrcDesign}
    {f : TextLoc → TextLoc} {c : Col} {net : NetGraph} (hc : phase1 E src.tree = .ok c)
    (hn : netlistOf E auto atLoc ord (moveDesign f src) = .ok net)
    (hb : Buildable E boxed ord (seenAll ⟨E, c.synCuts E, auto⟩ atLoc (moveDesign f src)))
    (hmarks : ((blocksOf (eventsAll boxed E.opts.propCuts src.tree)).flatMap
      fun b => marksOf (SDeferred.stmt (src.text b))).Nodup)
    (hl : combLoops net = [])
    {via : Nat → Nat → Nat × Nat} (hr : RegularVia E (eventsAll boxed E.opts.propCuts (seenAll ⟨E, c.synCuts E, auto⟩ spot src)) c.cuts via)
    (ht : TimedVia E (eventsAll boxed E.opts.propCuts (seenAll ⟨E, c.synCuts E, auto⟩ spot src)) c.cuts via)
    (ho : ClocksOff E (eventsAll boxed E.opts.propCuts (seenAll ⟨E, c.synCuts E, auto⟩ spot src)) c.cuts)
    (hg : WholeClocks E.D (eventsAll boxed E.opts.propCuts (seenAll ⟨E, c.synCuts E, auto⟩ spot src)))
    (hf : TextFaithful M ⟨E, c.synCuts E, auto⟩ src.text (blocksOf (eventsAll boxed E.opts.propCuts src.tree))
      (eventsAll boxed E.opts.propCuts (seenAll ⟨E, c.synCuts E, auto⟩ spot src)))
    (hf' : ∀ b ∈ blocksOf (eventsAll boxed E.opts.propCuts src.tree), TextClocked (src.text b) →
      Suits M ⟨E, c.synCuts E, auto⟩ (SDeferred.stmt (src.text b)))
    {T : (Nat → Vals V) → Nat → Deferred → Bool}
    (hT : TextTriggers E.D src.text (blocksOf (eventsAll boxed E.opts.propCuts src.tree)) T) {σ σ' : Nat → Vals V}
    (hs : TextUnrolls M E src.text (blocksOf (eventsAll boxed E.opts.propCuts src.tree))
      (eventsAll boxed E.opts.propCuts (seenAll ⟨E, c.synCuts E, auto⟩ spot src)) (T σ) σ)
    (hs' : TextUnrolls M E src.text (blocksOf (eventsAll boxed E.opts.propCuts src.tree))
      (eventsAll boxed E.opts.propCuts (seenAll ⟨E, c.synCuts E, auto⟩ spot src)) (T σ') σ')
    (hw : ∀ t, Shared E (eventsAll boxed E.opts.propCuts (seenAll ⟨E, c.synCuts E, auto⟩ spot src)) via (σ t))
    (hw' : ∀ t, Shared E (eventsAll boxed E.opts.propCuts (seenAll ⟨E, c.synCuts E, auto⟩ spot src)) via (σ' t))
    (ha : ∀ b ∈ blocksOf (eventsAll boxed E.opts.propCuts src.tree), ∀ x j, TextKept (src.text b) x j →
      OnIface E (eventsAll boxed E.opts.propCuts (seenAll ⟨E, c.synCuts E, auto⟩ spot src)) x → ∀ t, T σ t b = T σ' t b)
    (hi : ∀ b ∈ blocksOf (eventsAll boxed E.opts.propCuts src.tree), ∀ x j, TextKept (src.text b) x j →
      σ 0 x j = σ' 0 x j)
    (hp : ∀ t s q, OuterSource E (eventsAll boxed E.opts.propCuts (seenAll ⟨E, c.synCuts E, auto⟩ spot src)) c.cuts via s q →
      ¬ HeldVia E (eventsAll boxed E.opts.propCuts (seenAll ⟨E, c.synCuts E, auto⟩ spot src)) c.cuts via s q →
      (∀ k e, ¬ Wired (eventsAll boxed E.opts.propCuts (seenAll ⟨E, c.synCuts E, auto⟩ spot src)) s q k e) →
      σ t s q ≠ σ' t s q → Bare (eventsAll boxed E.opts.propCuts (seenAll ⟨E, c.synCuts E, auto⟩ spot src)) s ∧
        E.D.kind s ≠ .modportPort ∧
        ∃ p, LastSupply (eventsAll boxed E.opts.propCuts (seenAll ⟨E, c.synCuts E, auto⟩ spot src)) s q p)
    {b : Deferred} (hbm : b ∈ blocksOf (eventsAll boxed E.opts.propCuts src.tree)) {x j : Nat}
    (hv : TextGives (src.text b) x j) {p : PortDecl}
    (hpo : .port p ∈ eventsAll boxed E.opts.propCuts (seenAll ⟨E, c.synCuts E, auto⟩ spot src))
    (hx : E.D.port x = some p.sym) {lo hi' : Int} (hsp : Spans E c.cuts p x lo hi')
    (hin : ∀ w ∈ allWrites (seen ⟨E, c.synCuts E, auto⟩ spot src.text b).stmt, w.sym = x → InRng w.bounds j →
      lo ≤ w.bounds.lower ∧ w.bounds.upper ≤ hi')
    (hno : ∀ (t s q n m : Nat) p',
      LastSupply (eventsAll boxed E.opts.propCuts (seenAll ⟨E, c.synCuts E, auto⟩ spot src)) s q p' →
      σ t s q ≠ σ' t s q → PortNode E.D net p' q n → PortNode E.D net p j m →
      p'.dir ≠ p.dir ∧ findPath net n m = some []) (t : Nat) : σ t x j = σ' t x j := by
  obtain ⟨c', h1, h2, h3, h4, h5, h6, h7⟩ := text_built hc hn hb hmarks
  obtain ⟨M', T', m1, m2, m3, m4, m5, _, m7⟩ :=
    text_over_time (S := ⟨E, c.synCuts E, auto⟩) h5 hauto h6 h7 hmarks hf hf' hT
  have hbs : blocksOf (eventsAll boxed E.opts.propCuts (seenAll ⟨E, c.synCuts E, auto⟩ spot src)) =
      (blocksOf (eventsAll boxed E.opts.propCuts src.tree)).map (seen ⟨E, c.synCuts E, auto⟩ spot src.text) := by
    rw [seenAll, eventsAll_swap, blocksOf_swap]
  refine no_path_same_clocked_via_partial hb h1 h3 h4 hl (h2 ▸ hr) (h2 ▸ ht) (h2 ▸ ho) hg m1 m2 m3 (m4 σ hs) (m4 σ' hs') hw hw'
      (fun b' hb' x j hk hon t => by
        rw [hbs] at hb'
        obtain ⟨b, hb, rfl⟩ := List.mem_map.1 hb'
        rw [m7 b hb x j hk, m7 b hb x j hk]
        exact ha b hb x j ((m5 b hb x j).1.1 hk) hon t)
    (fun b' hb' x j hk => ?_) (fun t s q g1 g2 g3 => ?_) (hbs ▸ List.mem_map.2 ⟨b, hbm, rfl⟩)
    ((m5 b hbm x j).2.2 hv) hpo hx (h2 ▸ hsp) hin hno t
  · rw [hbs] at hb'
    obtain ⟨b, hb, rfl⟩ := List.mem_map.1 hb'
    exact hi b hb x j ((m5 b hb x j).1.1 hk)
  · exact hp t s q (h2 ▸ g1) (h2 ▸ g2) (fun k e hwd => g3 (wired_constant (S := ⟨E, c.synCuts E, auto⟩) h6 hf
      (hs.stable t) (hs'.stable t) hwd g1.1.2)) g3

/-! ### A concrete case

The design of Props/TickVia from its text. -/

def iyText : Deferred → SDeferred
  | .procedural _ (.timed (.signalEvent ⟨_, some 9⟩)) _ =>
    .procedural .alwaysFF (.timed (.signalEvent ⟨.posEdge, some 9⟩)) (.assign false (tcAsg 6 30 3))
  | .procedural .. => .procedural .alwaysFF (.timed (.signalEvent ⟨.posEdge, some 10⟩)) (.assign false (tcAsg 2 2 31))
  | .continuous l _ => .continuous (if l.line = 1 then tcAsg 1 10 0 else if l.line = 4 then tcAsg 4 1 2 else tcAsg 5 4 3)

def iySrc : SrcDesign := ⟨itTop, iyText⟩
def iyNet : NetGraph := (netlistOf ivE (fun _ => false) atLoc Tracker.slots (moveDesign id iySrc)).toOption.getD {}
abbrev iyBs : List Deferred := [tkB0, itB1, itB2, tkB2, tkB3]

theorem iy_cuts : itCol.cuts = fun _ => none := by
  obtain ⟨c, a1, a2, _⟩ := walked it_elab
  have hcc : itCol = c := Except.ok.inj (it_phase1.symm.trans a1)
  rw [hcc]
  refine steps_uncut _ (fine_start ivE.D) ?_ a2.run
  intro ev hev
  refine ⟨it_elab.ok ev hev, ?_⟩
  rw [it_events] at hev
  simp [itEvents] at hev
  rcases hev with rfl | rfl | rfl | rfl | rfl | rfl | rfl | rfl | rfl | rfl <;> simp

theorem iy_env : (⟨ivE, itCol.synCuts ivE, fun _ => false⟩ : SynEnv) = ⟨ivE, fun _ => none, fun _ => false⟩ := by
  rw [Col.synCuts, iy_cuts]
  simp

theorem iy_text (b : Deferred) (hb : b ∈ iyBs) :
    elabBlock ⟨ivE, fun _ => none, fun _ => false⟩ spot (iyText b) = .ok b ∧
    elabBlock ⟨ivE, fun _ => none, fun _ => false⟩ atLoc (moveTextBlock id (iyText b)) = .ok b := by
  simp at hb
  rcases hb with rfl | rfl | rfl | rfl | rfl <;> exact ⟨rfl, rfl⟩

theorem iy_seen : seenAll ⟨ivE, itCol.synCuts ivE, fun _ => false⟩ spot iySrc = itTop := by
  rw [iy_env]
  simp [seenAll, iySrc, itTop, withBlocks, withBlock, seen, iy_text]

theorem iy_seen_at : seenAll ⟨ivE, itCol.synCuts ivE, fun _ => false⟩ atLoc (moveDesign id iySrc) = itTop := by
  rw [iy_env]
  simp [seenAll, moveDesign, iySrc, itTop, withBlocks, withBlock, seen, iy_text]

theorem iy_blocks : blocksOf (eventsAll hdBoxed ivE.opts.propCuts iySrc.tree) = iyBs := by
  rw [show iySrc.tree = itTop from rfl, it_events, it_blocks]

theorem iy_net : netlistOf ivE (fun _ => false) atLoc Tracker.slots (moveDesign id iySrc) = .ok iyNet := by
  have h : (netlistOf ivE (fun _ => false) atLoc Tracker.slots (moveDesign id iySrc)).toOption.isSome = true := by
    decide +kernel
  rw [iyNet]
  generalize netlistOf ivE (fun _ => false) atLoc Tracker.slots (moveDesign id iySrc) = r at h
  cases r with
  | error e => cases h
  | ok net => rfl

theorem iy_loops : combLoops iyNet = [] := by decide +kernel

/-- What the lines compute. -/
def iyM : Sense Bool where
  bit := fun b => b == .one
  value := fun loc ρ k => if loc.line = 1 then ρ 0 k else if loc.line = 2 then ρ 31 k else if loc.line = 4 then ρ 2 k else
    ρ 3 k
  pick := fun _ _ _ _ => false
  feed := fun _ _ _ => false

theorem iy_suits {S : SynEnv} {n y z : Nat} {b : Bool} (h : ∀ ρ k, iyM.value (tkAt n) ρ k = ρ z k) :
    Suits iyM S (.assign b (tcAsg n y z)) := by
  refine ⟨⟨rfl, rfl, (tx_whole y).2.2 _, (tx_whole z).2.2 _, rfl, (tx_whole y).1, (tx_whole y).2.1,
    fun _ _ => (tx_whole z).2.1⟩, ?_⟩
  refine .inl ⟨rfl, rfl, z, rfl, fun ρ k _ => ?_⟩
  rw [Nat.zero_add]
  exact h ρ k

theorem iy_all {S : SynEnv} (b : Deferred) (hb : b ∈ iyBs) : Suits iyM S (SDeferred.stmt (iyText b)) := by
  simp at hb
  rcases hb with rfl | rfl | rfl | rfl | rfl
  · exact iy_suits (b := true) (n := 1) (z := 0) fun _ _ => rfl
  · exact iy_suits (b := false) (n := 6) (z := 3) fun _ _ => rfl
  · exact iy_suits (b := false) (n := 2) (z := 31) fun _ _ => rfl
  · exact iy_suits (b := true) (n := 4) (z := 2) fun _ _ => rfl
  · exact iy_suits (b := true) (n := 5) (z := 3) fun _ _ => rfl

theorem iy_no_wire {x j : Nat} {k : Conn} {e : SExpr} : ¬ Wired itEvents x j k e := by
  rintro ⟨p, _, h, _⟩
  exact it_no_conn h

theorem iy_faithful {S : SynEnv} : TextFaithful iyM S iyText iyBs itEvents where
  blocks := fun b hb _ => iy_all b hb
  inlets := fun _ _ _ _ h => absurd h iy_no_wire

theorem iy_edge {b : Deferred} (hb : b ∈ iyBs) : TextClocked (iyText b) ↔ b = itB1 ∨ b = itB2 := by
  rw [← elabBlock_clocked (iy_text b hb).1]
  exact ⟨fun h => it_reg (by rw [it_blocks]; exact hb) h, it_clocked⟩

theorem iy_free {b : Deferred} (hb : b = tkB0 ∨ b = tkB2 ∨ b = tkB3) : ¬ TextClocked (iySrc.text b) := by
  intro h
  rcases hb with rfl | rfl | rfl <;> exact h

theorem iy_triggers : TextTriggers ivE.D iyText iyBs itFire := by
  intro b hb t σ σ' h
  exact it_triggers b (by rw [it_blocks]; exact hb) t σ σ' fun t' ht z i hw =>
    h t' ht z i ((elabBlock_waits (iy_text b hb).1 ivE.D z i).1 hw)

theorem iy_solves (v : Bool) (t : Nat) : TextSolves iyM ivE iyText iyBs itEvents (itVals v t) where
  blocks := by
    intro b hb hc x p ha
    have hne : ¬ (b = itB1 ∨ b = itB2) := fun h => hc ((iy_edge hb).2 h)
    simp at hb
    rcases hb with rfl | rfl | rfl | rfl | rfl
    · obtain ⟨rfl, hp⟩ := tc_bits ha.2
      show _ = putBits (iyM.value (tkAt 1)) (hdWhole 10) (itVals v t) 10 p
      rw [(tc_put (ν := itVals v t) hp).1]
      simp [iyM, tkAt, itVals, hp]
      omega
    · exact absurd (.inl rfl) hne
    · exact absurd (.inr rfl) hne
    · obtain ⟨rfl, hp⟩ := tc_bits ha.2
      show _ = putBits (iyM.value (tkAt 4)) (hdWhole 1) (itVals v t) 1 p
      rw [(tc_put (ν := itVals v t) hp).1]
      simp [iyM, tkAt, itVals, hp]
      omega
    · obtain ⟨rfl, hp⟩ := tc_bits ha.2
      show _ = putBits (iyM.value (tkAt 5)) (hdWhole 4) (itVals v t) 4 p
      rw [(tc_put (ν := itVals v t) hp).1]
      simp [iyM, tkAt, itVals, hp]
      omega
  inlets := fun _ _ _ _ h => absurd h iy_no_wire
  outlets := by
    rintro x j y q ⟨p, k, e, _, h, _⟩
    exact absurd h.1 it_no_conn

theorem iy_kept {b : Deferred} (hb : b ∈ iyBs) {x j : Nat} (h : TextKept (iyText b) x j) :
    (b = itB1 ∧ x = 30 ∨ b = itB2 ∧ x = 2) ∧ j ≤ 7 := by
  rcases (iy_edge hb).1 h.1 with rfl | rfl
  · obtain ⟨rfl, hp⟩ := tc_bits h.2.2
    exact ⟨.inl ⟨rfl, rfl⟩, by omega⟩
  · obtain ⟨rfl, hp⟩ := tc_bits h.2.2
    exact ⟨.inr ⟨rfl, rfl⟩, by omega⟩

theorem iy_unrolls (v : Bool) : TextUnrolls iyM ivE iyText iyBs itEvents (itFire (itVals v)) (itVals v) where
  stable := iy_solves v
  step := by
    intro t b hb x j hk
    obtain ⟨⟨rfl, rfl⟩ | ⟨rfl, rfl⟩, hj⟩ := iy_kept hb hk <;> have h3 : (0 : Int) ≤ j ∧ (j : Int) ≤ 7 := by omega
    · have hl : laterText iyM (SDeferred.stmt (iyText itB1)) (fun _ => true) (itVals v t) (itVals v t) 30 j = true := by
        show putInto (iyM.value (tkAt 6)) (hdWhole 30) (itVals v t) (itVals v t) 30 j = true
        rw [(tc_put h3).2]
        simp [iyM, tkAt, itVals, h3]
      rw [hl, show itFire (itVals v) t itB1 = true from rfl]
      simp [itVals, h3]
    · have hl : laterText iyM (SDeferred.stmt (iyText itB2)) (fun _ => true) (itVals v t) (itVals v t) 2 j =
          decide (1 ≤ t) := by
        show putInto (iyM.value (tkAt 2)) (hdWhole 2) (itVals v t) (itVals v t) 2 j = decide (1 ≤ t)
        rw [(tc_put h3).2]
        simp [iyM, tkAt, itVals, h3]
      rw [hl]
      rcases t with _ | _ | t
      · rw [show itFire (itVals v) 0 itB2 = false from rfl]
        simp [itVals]
      · rw [show itFire (itVals v) 1 itB2 = (!itVals v 0 10 0 && itVals v 1 10 0) from rfl]
        cases v <;> simp [itVals, h3]
      · rw [show itFire (itVals v) (t + 1 + 1) itB2 = (!itVals v (t + 1) 10 0 && itVals v (t + 1 + 1) 10 0) from rfl]
        cases v <;> simp [itVals, h3]

theorem iy_alike : ∀ b ∈ iyBs, ∀ x j, TextKept (iyText b) x j → OnIface ivE itEvents x →
    ∀ t, itFire (itVals false) t b = itFire (itVals true) t b := by
  intro b hb x j hk hon t
  rw [it_on] at hon
  obtain ⟨⟨rfl, _⟩ | ⟨_, rfl⟩, _⟩ := iy_kept hb hk
  · rfl
  · omega

theorem iy_init : ∀ b ∈ iyBs, ∀ x j, TextKept (iyText b) x j → itVals false 0 x j = itVals true 0 x j := by
  intro b hb x j hk
  obtain ⟨⟨_, rfl⟩ | ⟨_, rfl⟩, _⟩ := iy_kept hb hk <;> simp [itVals]

theorem iy_marks : ((iyBs : List Deferred).flatMap fun b => marksOf (SDeferred.stmt (iyText b))).Nodup := by
  decide

/-- Output `y` differs at time 2, because `q` is loaded over the interface in one case only, so there is a path. -/
example := text_clocks_via_partial (M := iyM) (E := ivE) (auto := fun _ => false) (fun _ => rfl) (boxed := hdBoxed)
    (src := iySrc) (f := id) it_phase1 iy_net (by rw [iy_seen_at]; exact it_build) (by rw [iy_blocks]; exact iy_marks)
    iy_loops (via := ivVia) (by rw [iy_seen, it_events]; exact it_regular _)
    (by rw [iy_seen, it_events]; exact it_timed _) (by rw [iy_seen, it_events]; exact it_off _)
    (by rw [iy_seen, it_events]; exact it_clocks) (by rw [iy_seen, it_events, iy_blocks]; exact iy_faithful)
    (by rw [iy_blocks]; exact fun b hb _ => iy_all b hb) (T := itFire) (by rw [iy_blocks]; exact iy_triggers)
    (by rw [iy_seen, it_events, iy_blocks]; exact iy_unrolls false)
    (by rw [iy_seen, it_events, iy_blocks]; exact iy_unrolls true)
    (by rw [iy_seen, it_events]; exact it_shared false) (by rw [iy_seen, it_events]; exact it_shared true)
    (by rw [iy_seen, it_events, iy_blocks]; exact iy_alike) (by rw [iy_blocks]; exact iy_init) (b := tkB2)
    (by rw [iy_blocks]; simp) (x := 1) (j := 0) (t := 2)
    (.inr ⟨iy_free (by simp), rfl, 0, by decide, by decide⟩) (by decide)

/-- There is no path from port `a` to port `w`, so `w` is always the same. -/
example (t : Nat) : itVals false t 4 0 = itVals true t 4 0 :=
  text_same_clocks_via_partial (M := iyM) (E := ivE) (auto := fun _ => false) (fun _ => rfl) (boxed := hdBoxed)
    (src := iySrc) (f := id) it_phase1 iy_net (by rw [iy_seen_at]; exact it_build) (by rw [iy_blocks]; exact iy_marks)
    iy_loops (via := ivVia) (by rw [iy_seen, it_events]; exact it_regular _)
    (by rw [iy_seen, it_events]; exact it_timed _) (by rw [iy_seen, it_events]; exact it_off _)
    (by rw [iy_seen, it_events]; exact it_clocks) (by rw [iy_seen, it_events, iy_blocks]; exact iy_faithful)
    (by rw [iy_blocks]; exact fun b hb _ => iy_all b hb) (T := itFire) (by rw [iy_blocks]; exact iy_triggers)
    (σ := itVals false) (σ' := itVals true) (by rw [iy_seen, it_events, iy_blocks]; exact iy_unrolls false)
    (by rw [iy_seen, it_events, iy_blocks]; exact iy_unrolls true)
    (by rw [iy_seen, it_events]; exact it_shared false) (by rw [iy_seen, it_events]; exact it_shared true)
    (by rw [iy_seen, it_events, iy_blocks]; exact iy_alike) (by rw [iy_blocks]; exact iy_init)
    (by rw [iy_seen, it_events]; exact fun t s q h1 h2 _ h3 => it_inputs t s q h1 h2 h3) (b := tkB3)
    (by rw [iy_blocks]; simp) (x := 4) (j := 0)
    (.inr ⟨iy_free (by simp), rfl, 0, by decide, by decide⟩) (p := hdOut 23 4)
    (by rw [iy_seen, it_events]; simp [itEvents]) rfl (lo := 0) (hi' := 7) it_spans
    (by
      rw [iy_env]
      simp only [seen, show iySrc.text = iyText from rfl, (iy_text tkB3 (by simp)).1]
      intro w hw _ _; simp [tkB3, Deferred.stmt, allWrites, asgWrites, dsRef] at hw; subst hw; decide)
    (by
      rw [iy_seen, it_events]
      intro t s q n m p' h1 h2 h3 h4
      have hs : s ≠ 3 := by rintro rfl; exact h2 rfl
      obtain ⟨rfl, rfl⟩ := it_in h1 hs
      obtain ⟨n1, x, b, hx, _, n2⟩ := h3
      obtain ⟨m1, y, b', hy, _, m2⟩ := h4
      cases hx; cases hy
      exact ⟨by decide, (by decide +kernel : ∀ n ∈ iyNet.g.nodes, ∀ m ∈ iyNet.g.nodes,
        portName (iyNet.data n) = some ['a'] → portName (iyNet.data m) = some ['e'] → findPath iyNet n m = some [])
          n n1 m m1 (by rw [n2]; rfl) (by rw [m2]; rfl)⟩) t

end Verif.Props

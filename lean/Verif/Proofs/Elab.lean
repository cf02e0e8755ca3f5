import Verif.Proofs.Swap
import Verif.Proofs.Marking
import Verif.Props.BitSlice

/-! Helper lemmas: from the text of blocks to what the analysis sees. -/
namespace Verif.Proofs
open Verif.Spec Verif.Model Verif.Props

/-! ### The build -/

theorem runTexts_eq {S : SynEnv} {place : TextLoc → Nat → TextLoc} {ord : Tracker → List (Nat × Nat)}
    {text : Deferred → SDeferred} : ∀ {bs : List Deferred} {s s' : Bld},
    s.runTexts S place ord (bs.map text) = .ok s' →
    (∀ b ∈ bs, elabBlock S place (text b) = .ok (seen S place text b)) ∧
      s.runBlocks S.T.D ord (bs.map (seen S place text)) = .ok s' := by
  intro bs
  induction bs with
  | nil => intro s s' h; exact ⟨by simp, h⟩
  | cons b bs ih =>
    intro s s' h
    simp only [List.map_cons, Bld.runTexts] at h
    cases he : elabBlock S place (text b) with
    | error e => rw [he] at h; cases h
    | ok b' =>
      have hs : seen S place text b = b' := by simp only [seen, he]
      rw [he] at h
      simp only at h
      simp only [List.map_cons, Bld.runBlocks, hs]
      cases hh : s.handleBlock S.T.D ord b' with
      | error e => rw [hh] at h; cases h
      | ok s1 =>
        rw [hh] at h
        obtain ⟨h1, h2⟩ := ih h
        refine ⟨fun c hc => ?_, h2⟩
        rcases List.mem_cons.1 hc with rfl | hc
        · rw [he, hs]
        · exact h1 c hc

/-- The netlist of a text is that of the design the analysis sees. -/
theorem netlistOf_seen {E : TravEnv} {auto : Nat → Bool} {place : TextLoc → Nat → TextLoc}
    {ord : Tracker → List (Nat × Nat)} {src : SrcDesign} {net : NetGraph} {c : Col} (hc : phase1 E src.tree = .ok c)
    (h : netlistOf E auto place ord src = .ok net) :
    (∀ b ∈ c.blocks, elabBlock ⟨E, c.synCuts E, auto⟩ place (src.text b) =
      .ok (seen ⟨E, c.synCuts E, auto⟩ place src.text b)) ∧
    netlist E ord (seenAll ⟨E, c.synCuts E, auto⟩ place src) = .ok net := by
  simp only [netlistOf, hc] at h
  simp only [netlist, seenAll, swap_phase1, hc, Except.map]
  have hst : (swapCol (seen ⟨E, c.synCuts E, auto⟩ place src.text) c).start = c.start := rfl
  have hbl : (swapCol (seen ⟨E, c.synCuts E, auto⟩ place src.text) c).blocks =
    c.blocks.map (seen ⟨E, c.synCuts E, auto⟩ place src.text) := rfl
  rw [hst, hbl]
  cases hs : c.start with
  | error e => rw [hs] at h; cases h
  | ok s =>
    rw [hs] at h
    simp only at h
    cases hr : s.runTexts ⟨E, c.synCuts E, auto⟩ place ord (c.blocks.map src.text) with
    | error e => rw [hr] at h; cases h
    | ok s' =>
      rw [hr] at h
      obtain ⟨h1, h2⟩ := runTexts_eq hr
      refine ⟨h1, ?_⟩
      simp only [Bld.build]
      simp only at h2
      rw [h2]
      exact h

/-! ### Places -/

theorem spot_inj {l l' : TextLoc} {i i' : Nat} (h : spot l i = spot l' i') : l = l' ∧ i = i' := by
  obtain ⟨f, n, a⟩ := l
  obtain ⟨f', n', a'⟩ := l'
  simp only [spot, TextLoc.mk.injEq] at h
  obtain ⟨h1, h2, h3⟩ := h
  have key : ∀ s t a b : Nat, a ≤ s → b ≤ t → s * s + a = t * t + b → s < t → False := by
    intro s t a b ha hb he hst
    have : (s + 1) * (s + 1) ≤ t * t := Nat.mul_le_mul hst hst
    have : (s + 1) * (s + 1) = s * s + 2 * s + 1 := by grind
    omega
  have hs : a + i = a' + i' := by
    rcases Nat.lt_trichotomy (a + i) (a' + i') with hlt | he | hgt
    · exact (key _ _ a a' (by omega) (by omega) h3 hlt).elim
    · exact he
    · exact (key _ _ a' a (by omega) (by omega) h3.symm hgt).elim
  rw [hs] at h3
  have : a = a' := by omega
  subst this
  exact ⟨by rw [h1, h2], by omega⟩

/-- The place a spot belongs to. -/
noncomputable def unspot (m : TextLoc) : TextLoc :=
  open Classical in if h : ∃ l i, m = spot l i then h.choose else m

theorem unspot_spot (l : TextLoc) (i : Nat) : unspot (spot l i) = l := by
  have h : ∃ l' i', spot l i = spot l' i' := ⟨l, i, rfl⟩
  rw [unspot, dif_pos h]
  obtain ⟨i', hi⟩ := h.choose_spec
  exact (spot_inj hi).1.symm

theorem segs_move {S : SynEnv} {pl : TextLoc → Nat → TextLoc} {f f0 : TextLoc → TextLoc}
    (hf : ∀ l i, f (pl l i) = f0 l) (a : SAsg) : ∀ (segs : List Seg) (i : Nat),
    elabSegs S atLoc { a with loc := f0 a.loc } i segs = (elabSegs S pl a i segs).map (List.map (moveSeg f)) := by
  intro segs
  induction segs with
  | nil => intro i; rfl
  | cons g gs ih =>
    intro i
    simp only [elabSegs]
    have hl : ∀ xs, elabRhs S { a with loc := f0 a.loc } g xs = elabRhs S a g xs := by
      intro xs
      induction xs with
      | nil => rfl
      | cons x xs ih => simp only [elabRhs, ih]
    cases (if a.force = true then Except.ok [] else elabLhs S g g.lhs) with
    | error e => rfl
    | ok l =>
      simp only [hl]
      cases (if a.lvalueArg = true then Except.ok [] else elabRhs S a g g.rhs) with
      | error e => rfl
      | ok r =>
        simp only [ih]
        cases elabSegs S pl a (i + 1) gs with
        | error e => rfl
        | ok l' => simp [Except.map, moveSeg, hf, atLoc]

theorem asg_move {S : SynEnv} {pl : TextLoc → Nat → TextLoc} {f f0 : TextLoc → TextLoc}
    (hf : ∀ l i, f (pl l i) = f0 l) (a : SAsg) :
    elabAsg S atLoc { a with loc := f0 a.loc } = (elabAsg S pl a).map (moveAsg f) := by
  simp only [elabAsg]
  cases assignWalk S.T.opts.resolveBits a.integral S.cuts a.lhs a.rhs with
  | legacy => rfl
  | nothing => rfl
  | assertFails => rfl
  | segments segs =>
    simp only [segs_move hf]
    cases elabSegs S pl a 0 segs <;> rfl

theorem stmt_text_move {S : SynEnv} {pl : TextLoc → Nat → TextLoc} {f f0 : TextLoc → TextLoc}
    (hf : ∀ l i, f (pl l i) = f0 l) (st : SStmt) :
    elabStmt S atLoc (moveText f0 st) = (elabStmt S pl st).map (moveStmt f) := by
  induction st with
  | skip | eval | dead => rfl
  | assign b a =>
    simp only [moveText, elabStmt, asg_move hf]
    cases elabAsg S pl a <;> simp [Except.map, moveStmt, hf, atLoc]
  | cond k loc es t ih =>
    simp only [moveText, elabStmt, ih]
    cases elabStmt S pl t <;> simp [Except.map, moveStmt, hf, atLoc]
  | seq s t ih1 ih2 | choose i s t ih1 ih2 =>
    simp only [moveText, elabStmt, ih1, ih2]
    cases elabStmt S pl s with
    | error e => rfl
    | ok u => cases elabStmt S pl t <;> rfl

theorem block_text_move {S : SynEnv} {pl : TextLoc → Nat → TextLoc} {f f0 : TextLoc → TextLoc}
    (hf : ∀ l i, f (pl l i) = f0 l) (b : SDeferred) :
    elabBlock S atLoc (moveTextBlock f0 b) = (elabBlock S pl b).map (moveBlock f) := by
  cases b with
  | procedural k body st =>
    simp only [moveTextBlock, elabBlock, stmt_text_move hf]
    cases elabStmt S pl st <;> rfl
  | continuous a =>
    simp only [moveTextBlock, elabBlock, asg_move hf]
    cases elabAsg S pl a <;> simp [Except.map, moveBlock, hf, atLoc]

theorem seen_move {S : SynEnv} {pl : TextLoc → Nat → TextLoc} {f f0 : TextLoc → TextLoc}
    (hf : ∀ l i, f (pl l i) = f0 l) (src : SrcDesign) (b : Deferred) :
    seen S atLoc (moveDesign f0 src).text b = moveBlock f (seen S pl src.text b) := by
  simp only [seen, moveDesign, block_text_move hf]
  cases elabBlock S pl (src.text b) <;> rfl

mutual
theorem member_move {g g' : Deferred → Deferred} {f : TextLoc → TextLoc} (h : ∀ b, g b = moveBlock f (g' b)) (m : Member) :
    withBlock g m = moveMember f (withBlock g' m) := by
  cases m with
  | port | «variable» => simp [withBlock, moveMember]
  | block b => simp [withBlock, moveMember, h]
  | group u ms => simp [withBlock, moveMember, members_move h ms]
  | inst u d p ms ks => simp [withBlock, moveMember, members_move h ms]

theorem members_move {g g' : Deferred → Deferred} {f : TextLoc → TextLoc} (h : ∀ b, g b = moveBlock f (g' b))
    (ms : List Member) : withBlocks g ms = moveAll f (withBlocks g' ms) := by
  cases ms with
  | nil => simp [withBlocks, moveAll]
  | cons m ms => simp [withBlocks, moveAll, member_move h m, members_move h ms]
end

/-- The design as the code sees it, and as it is seen with places of its own for every segment. -/
theorem seenAll_move (S : SynEnv) (f0 : TextLoc → TextLoc) (src : SrcDesign) :
    seenAll S atLoc (moveDesign f0 src) = moveAll (f0 ∘ unspot) (seenAll S spot src) :=
  members_move (seen_move (fun l i => by simp [unspot_spot]) src) src.tree

/-! ### Events -/

theorem portsOf_swap (g : Deferred → Deferred) (ms : List Member) : portsOf (withBlocks g ms) = portsOf ms := by
  induction ms with
  | nil => rfl
  | cons m ms ih => cases m <;> simp [withBlocks, withBlock, portsOf, ih]

mutual
theorem events_swap (boxed : Str → Str → Bool) (pc : Bool) (g : Deferred → Deferred) (m : Member) :
    events boxed pc (withBlock g m) = (events boxed pc m).map (withEvent g) := by
  cases m with
  | port p => simp [withBlock, events, withEvent]
  | «variable» sym i ds => simp only [withBlock, events]; split <;> simp [withEvent]
  | block b => simp [withBlock, events, withEvent]
  | group u ms => simp only [withBlock, events, eventsAll_swap boxed pc g ms]; split <;> simp
  | inst u d p ms ks =>
    simp only [withBlock, events, eventsAll_swap boxed pc g ms, portsOf_swap]
    split
    · rfl
    · split <;> split <;> simp [withEvent, Function.comp_def]

theorem eventsAll_swap (boxed : Str → Str → Bool) (pc : Bool) (g : Deferred → Deferred) (ms : List Member) :
    eventsAll boxed pc (withBlocks g ms) = (eventsAll boxed pc ms).map (withEvent g) := by
  cases ms with
  | nil => simp [withBlocks, eventsAll]
  | cons m ms =>
    simp only [withBlocks, eventsAll, events_swap boxed pc g m, eventsAll_swap boxed pc g ms, List.map_append]
end

theorem blocksOf_swap (g : Deferred → Deferred) (es : List Event) :
    blocksOf (es.map (withEvent g)) = (blocksOf es).map g := by
  induction es with
  | nil => rfl
  | cons e es ih => cases e <;> simp [withEvent, blocksOf, ih]

end Verif.Proofs

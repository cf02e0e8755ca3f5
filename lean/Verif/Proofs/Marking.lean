import Verif.Proofs.Relabel

/-! Helper lemmas: designs that differ only in the places of assignments and conditions, and places that
tell all of them apart. -/
namespace Verif.Proofs
open Verif.Spec Verif.Model

/-! ### Events -/

theorem portsOf_move (f : TextLoc → TextLoc) (ms : List Member) : portsOf (moveAll f ms) = portsOf ms := by
  induction ms with
  | nil => rfl
  | cons m ms ih => cases m <;> simp [moveAll, moveMember, portsOf, ih]

mutual
theorem events_move (boxed : Str → Str → Bool) (pc : Bool) (f : TextLoc → TextLoc) (m : Member) :
    events boxed pc (moveMember f m) = (events boxed pc m).map (moveEvent f) := by
  cases m with
  | port p => simp [moveMember, events, moveEvent]
  | «variable» sym i ds => simp only [moveMember, events]; split <;> simp [moveEvent]
  | block b => simp [moveMember, events, moveEvent]
  | group u ms => simp only [moveMember, events, eventsAll_move boxed pc f ms]; split <;> simp
  | inst u d p ms ks =>
    simp only [moveMember, events, eventsAll_move boxed pc f ms, portsOf_move]
    split
    · rfl
    · split <;> split <;> simp [moveEvent, Function.comp_def]

theorem eventsAll_move (boxed : Str → Str → Bool) (pc : Bool) (f : TextLoc → TextLoc) (ms : List Member) :
    eventsAll boxed pc (moveAll f ms) = (eventsAll boxed pc ms).map (moveEvent f) := by
  cases ms with
  | nil => simp [moveAll, eventsAll]
  | cons m ms =>
    simp only [moveAll, eventsAll, events_move boxed pc f m, eventsAll_move boxed pc f ms, List.map_append]
end

theorem blocksOf_move (f : TextLoc → TextLoc) (es : List Event) :
    blocksOf (es.map (moveEvent f)) = (blocksOf es).map (moveBlock f) := by
  induction es with
  | nil => rfl
  | cons e es ih => cases e <;> simp [moveEvent, blocksOf, ih]

theorem declares_move (f : TextLoc → TextLoc) (es : List Event) :
    (es.map (moveEvent f)).flatMap declares = es.flatMap declares := by
  induction es with
  | nil => rfl
  | cons e es ih =>
    rw [List.map_cons, List.flatMap_cons, List.flatMap_cons, ih]
    cases e <;> rfl

theorem mem_move {f : TextLoc → TextLoc} {es : List Event} {e : Event} (hb : ∀ b, e ≠ .block b) :
    e ∈ es.map (moveEvent f) ↔ e ∈ es := by
  constructor
  · intro h
    obtain ⟨x, hx, he⟩ := List.mem_map.1 h
    cases x with
    | block b => exact absurd he.symm (hb _)
    | _ => exact he ▸ hx
  · intro h
    refine List.mem_map.2 ⟨e, h, ?_⟩
    cases e with
    | block b => exact absurd rfl (hb b)
    | _ => rfl

/-! ### Writes -/

/-- A write with its place changed. -/
def moveWr (f : TextLoc → TextLoc) (w : Wr) : Wr := { w with loc := f w.loc }

theorem asgWrites_move (f : TextLoc → TextLoc) (loc : TextLoc) (b : Bool) (a : Asg) :
    asgWrites (f loc) b (moveAsg f a) = (asgWrites loc b a).map (moveWr f) := by
  cases a with
  | legacy notes => simp [asgWrites, moveAsg, moveWr, Function.comp_def]
  | aligned segs =>
    simp only [asgWrites, moveAsg]
    induction segs with
    | nil => rfl
    | cons g gs ih =>
      rw [List.map_cons, List.flatMap_cons, List.flatMap_cons, ih, List.map_append]
      simp [moveSeg, moveWr, Function.comp_def]

theorem allWrites_move (f : TextLoc → TextLoc) (st : Stmt) :
    allWrites (moveStmt f st) = (allWrites st).map (moveWr f) := by
  induction st with
  | assign loc b a => exact asgWrites_move f loc b a
  | seq s t ihs iht => simp [moveStmt, allWrites, ihs, iht]
  | choose i s t ihs iht => simp [moveStmt, allWrites, ihs, iht]
  | _ => rfl

theorem live_move (f : TextLoc → TextLoc) (st : Stmt) : live (moveStmt f st) = live st := by
  induction st with
  | seq s t ihs iht => simp [moveStmt, live, ihs, iht]
  | choose i s t ihs iht => simp [moveStmt, live, ihs, iht]
  | _ => rfl

theorem stmt_move (f : TextLoc → TextLoc) (b : Deferred) : (moveBlock f b).stmt = moveStmt f b.stmt := by
  cases b <;> rfl

theorem plain_move {f : TextLoc → TextLoc} {W X : List Wr}
    (h : Plain (W ++ X.map (moveWr f))) : Plain (W ++ X) := by
  have hm : ∀ {w}, w ∈ W ++ X → ∃ v ∈ W ++ X.map (moveWr f), v.sym = w.sym ∧ v.bounds = w.bounds := by
    intro w hw
    rcases List.mem_append.1 hw with h1 | h1
    · exact ⟨w, List.mem_append_left _ h1, rfl, rfl⟩
    · exact ⟨moveWr f w, List.mem_append_right _ (List.mem_map.2 ⟨w, h1, rfl⟩), rfl, rfl⟩
  have hcut : ∀ {y k}, Cut (W ++ X) y k → Cut (W ++ X.map (moveWr f)) y k := by
    rintro y k ⟨w, hw, h1, h2⟩
    obtain ⟨v, hv, e1, e2⟩ := hm hw
    exact ⟨v, hv, e1.trans h1, e2 ▸ h2⟩
  refine ⟨fun w hw => ?_, fun w hw j k c1 c2 => ?_⟩
  · obtain ⟨v, hv, _, e2⟩ := hm hw
    exact e2 ▸ h.rng v hv
  · obtain ⟨v, hv, e1, e2⟩ := hm hw
    rw [← e1] at c1 c2
    rw [← e2]
    exact h.cuts v hv j k (hcut c1) (hcut c2)

theorem designWrites_move (f : TextLoc → TextLoc) (h : List (Nat × Rec)) (bs : List Deferred) :
    designWrites h (bs.map (moveBlock f)) =
      histWrites h ++ (bs.flatMap fun b => allWrites b.stmt).map (moveWr f) := by
  unfold designWrites
  congr 1
  induction bs with
  | nil => rfl
  | cons b bs ih =>
    rw [List.map_cons, List.flatMap_cons, List.flatMap_cons, ih, List.map_append, stmt_move, allWrites_move]

/-! ### The conditions on designs -/

theorem elaborated_move {E : TravEnv} {boxed : Str → Str → Bool} {f : TextLoc → TextLoc} {ms : List Member}
    (h : Elaborated E boxed (moveAll f ms)) : Elaborated E boxed ms := by
  refine ⟨h.boxes, fun ev hev => ?_, ?_⟩
  · have := h.ok (moveEvent f ev) (by rw [eventsAll_move]; exact List.mem_map.2 ⟨ev, hev, rfl⟩)
    cases ev <;> first | exact this | trivial
  · have := h.once
    rw [eventsAll_move, declares_move] at this
    exact this

theorem buildable_move {E : TravEnv} {boxed : Str → Str → Bool} {ord : Tracker → List (Nat × Nat)}
    {f : TextLoc → TextLoc} {ms : List Member} (h : Buildable E boxed ord (moveAll f ms)) :
    Buildable E boxed ord ms := by
  have hb : ∀ {b}, b ∈ blocksOf (eventsAll boxed E.opts.propCuts ms) →
      moveBlock f b ∈ blocksOf (eventsAll boxed E.opts.propCuts (moveAll f ms)) := by
    intro b hb
    rw [eventsAll_move, blocksOf_move]
    exact List.mem_map.2 ⟨b, hb, rfl⟩
  refine ⟨elaborated_move h.design, fun c hc => ?_, fun b hb' => ?_, fun b hb' => ?_, h.visits,
    fun p hp b hb' w hw => ?_⟩
  · have := h.plain (moveCol f c) (by rw [move_phase1, hc]; rfl)
    have e : designWrites (moveCol f c).hist (moveCol f c).blocks =
      designWrites c.hist (c.blocks.map (moveBlock f)) := rfl
    rw [e, designWrites_move] at this
    exact plain_move this
  · have := h.live _ (hb hb')
    rw [stmt_move, live_move] at this
    exact this
  · have := h.events _ (hb hb')
    cases b <;> exact this
  · have := h.ports p (by rw [eventsAll_move]; exact (mem_move fun b h => by cases h).2 hp) _ (hb hb') (moveWr f w)
      (by rw [stmt_move, allWrites_move]; exact List.mem_map.2 ⟨w, hw, rfl⟩)
    exact this

/-! ### Places -/

/-- The places in an assignment. -/
def placesAsg (loc : TextLoc) : Asg → List TextLoc
  | .legacy _ => [loc]
  | .aligned segs => loc :: segs.map (·.loc)

/-- The places in a statement. -/
def placesStmt : Stmt → List TextLoc
  | .skip | .reads _ | .dead => []
  | .assign loc _ a => placesAsg loc a
  | .branch _ loc => [loc]
  | .seq s t | .choose _ s t => placesStmt s ++ placesStmt t

mutual
/-- The places in a member. -/
def placesOf : Member → List TextLoc
  | .block b => placesStmt b.stmt
  | .group _ ms => placesAll ms
  | .inst _ _ _ ms _ => placesAll ms
  | _ => []

/-- The places in a design. -/
def placesAll : List Member → List TextLoc
  | [] => []
  | m :: ms => placesOf m ++ placesAll ms
end

/-- The place of a node of the text. -/
def placeOf : NodeData → Option TextLoc
  | .assignment l | .conditional l | .case l => some l
  | _ => none

theorem places_constants (xs : List RSrc) : (constantsOf xs).filterMap placeOf = [] := by
  induction xs with
  | nil => rfl
  | cons x xs ih =>
    cases x with
    | constant v w l => rw [constantsOf, List.filterMap_cons]; exact ih
    | _ => exact ih

theorem places_stmt (st : Stmt) : ((stmtNodes st).filterMap placeOf).Sublist (placesStmt st) := by
  induction st with
  | assign loc b a =>
    cases a with
    | legacy notes => exact List.Sublist.refl _
    | aligned segs =>
      refine List.Sublist.cons _ ?_
      simp only [stmtNodes, asgNodes]
      induction segs with
      | nil => exact List.Sublist.refl _
      | cons g gs ih =>
        rw [List.flatMap_cons, List.filterMap_append, List.filterMap_cons, places_constants]
        exact List.Sublist.cons₂ _ ih
  | branch k loc => cases k <;> exact List.Sublist.refl _
  | seq s t ihs iht => simp only [stmtNodes, placesStmt, List.filterMap_append]; exact ihs.append iht
  | choose i s t ihs iht => simp only [stmtNodes, placesStmt, List.filterMap_append]; exact ihs.append iht
  | _ => exact List.Sublist.refl _

theorem textNodes_append (l r : List Event) : textNodes (l ++ r) = textNodes l ++ textNodes r := by
  have : blocksOf (l ++ r) = blocksOf l ++ blocksOf r := by
    induction l with
    | nil => rfl
    | cons e l ih => cases e <;> simp [blocksOf, ih]
  simp [textNodes, this]

theorem textNodes_none (es : List Event) (h : ∀ e ∈ es, ∀ b, e ≠ .block b) : textNodes es = [] := by
  have : blocksOf es = [] := by
    induction es with
    | nil => rfl
    | cons e es ih =>
      have := ih fun x hx => h x (List.mem_cons_of_mem _ hx)
      cases e with
      | block b => exact absurd rfl (h _ List.mem_cons_self b)
      | _ => exact this
  simp [textNodes, this]

mutual
theorem places_member (boxed : Str → Str → Bool) (pc : Bool) (m : Member) :
    ((textNodes (events boxed pc m)).filterMap placeOf).Sublist (placesOf m) := by
  cases m with
  | port p => simp [events, textNodes, blocksOf]
  | «variable» sym i ds => simp only [events]; split <;> simp [textNodes, blocksOf]
  | block b => simpa [events, textNodes, blocksOf, placesOf] using places_stmt b.stmt
  | group u ms =>
    simp only [events, placesOf]
    split
    · simp [textNodes, blocksOf]
    · exact places_all boxed pc ms
  | inst u d p ms ks =>
    simp only [events, placesOf]
    split
    · simp [textNodes, blocksOf]
    · have h1 : textNodes (if pc then ks.map Event.cuts else []) = [] := textNodes_none _ (by
        intro e he b hb
        subst hb
        split at he
        · obtain ⟨_, _, h⟩ := List.mem_map.1 he; cases h
        · cases he)
      have h2 : textNodes (ks.map Event.connect) = [] := textNodes_none _ (by
        intro e he b hb
        subst hb
        obtain ⟨_, _, h⟩ := List.mem_map.1 he; cases h)
      rw [textNodes_append, textNodes_append, h1, h2, List.nil_append, List.append_nil]
      split
      · rw [textNodes_none]
        · simp
        · intro e he b hb
          subst hb
          rcases List.mem_cons.1 he with h | h
          · cases h
          · obtain ⟨_, _, h⟩ := List.mem_map.1 h; cases h
      · exact places_all boxed pc ms

theorem places_all (boxed : Str → Str → Bool) (pc : Bool) (ms : List Member) :
    ((textNodes (eventsAll boxed pc ms)).filterMap placeOf).Sublist (placesAll ms) := by
  cases ms with
  | nil => simp [eventsAll, textNodes, blocksOf]
  | cons m ms =>
    simp only [eventsAll, placesAll, textNodes_append, List.filterMap_append]
    exact (places_member boxed pc m).append (places_all boxed pc ms)
end

theorem count_places {d : NodeData} {l : TextLoc} (hd : placeOf d = some l) (xs : List NodeData) :
    xs.count d ≤ (xs.filterMap placeOf).count l := by
  induction xs with
  | nil => simp
  | cons x xs ih =>
    by_cases hx : x = d
    · subst hx
      simp [hd, ih]
    · rw [List.count_cons_of_ne hx]
      refine Nat.le_trans ih (List.Sublist.count_le _ ?_)
      exact (List.sublist_cons_self x xs).filterMap _

theorem distinct_of_places {boxed : Str → Str → Bool} {pc : Bool} {ms : List Member} (h : (placesAll ms).Nodup) :
    Distinct (eventsAll boxed pc ms) := by
  intro d hk
  obtain ⟨l, hl⟩ : ∃ l, placeOf d = some l := by
    cases d <;> simp [NodeData.kind, placeOf] at hk ⊢
  have := count_places hl (textNodes (eventsAll boxed pc ms))
  have h2 := List.nodup_iff_count.1 (h.sublist (places_all boxed pc ms)) l
  omega

/-! ### Places for all -/

/-- The place with number `i`. -/
def lab (i : Nat) : TextLoc := ⟨0, i, 0⟩

/-- The places from number `k` on are mapped to `L`. -/
def Agree (f : TextLoc → TextLoc) (k : Nat) (L : List TextLoc) : Prop :=
  ∀ i l, L[i]? = some l → f (lab (k + i)) = l

theorem agree_append {f : TextLoc → TextLoc} {k : Nat} {L M : List TextLoc} (h : Agree f k (L ++ M)) :
    Agree f k L ∧ Agree f (k + L.length) M := by
  refine ⟨fun i l hi => h i l ?_, fun i l hi => ?_⟩
  · rw [List.getElem?_append_left (List.getElem?_eq_some_iff.1 hi).1]; exact hi
  · rw [Nat.add_assoc]
    exact h _ l (by rw [List.getElem?_append_right (by omega)]; simpa using hi)

/-- `y` is `x` with the places from number `k` on, which were `L`. -/
def Numbered {α : Type} (move : (TextLoc → TextLoc) → α → α) (places : α → List TextLoc) (k : Nat) (x y : α)
    (L : List TextLoc) : Prop :=
  places y = (List.range' k L.length).map lab ∧ ∀ f, Agree f k L → move f y = x

theorem labs_append (k a b : Nat) :
    (List.range' k (a + b)).map lab = (List.range' k a).map lab ++ (List.range' (k + a) b).map lab := by
  rw [← List.map_append]
  congr 1
  rw [← List.range'_append]
  simp

theorem agree_head {f : TextLoc → TextLoc} {k : Nat} {l : TextLoc} {L : List TextLoc} (h : Agree f k (l :: L)) :
    f (lab k) = l := h 0 l rfl

theorem agree_tail {f : TextLoc → TextLoc} {k : Nat} {l : TextLoc} {L : List TextLoc} (h : Agree f k (l :: L)) :
    Agree f (k + 1) L := by
  have := (agree_append (L := [l]) (M := L) h).2
  exact this

theorem number_segs (segs : List DSeg) : ∀ k, ∃ y L,
    Numbered (fun f => List.map (moveSeg f)) (List.map (·.loc)) k segs y L := by
  induction segs with
  | nil => intro k; exact ⟨[], [], rfl, fun _ _ => rfl⟩
  | cons g gs ih =>
    intro k
    obtain ⟨y, L, h1, h2⟩ := ih (k + 1)
    refine ⟨{ g with loc := lab k } :: y, g.loc :: L, ?_, fun f hf => ?_⟩
    · rw [List.map_cons, h1]
      simp [List.range'_succ]
    · dsimp only at h2 ⊢
      rw [List.map_cons, h2 f (agree_tail hf)]
      simp only [moveSeg, agree_head hf]

theorem number_stmt (st : Stmt) : ∀ k, ∃ y L, Numbered moveStmt placesStmt k st y L := by
  induction st with
  | skip => intro k; exact ⟨.skip, [], rfl, fun _ _ => rfl⟩
  | reads rs => intro k; exact ⟨.reads rs, [], rfl, fun _ _ => rfl⟩
  | dead => intro k; exact ⟨.dead, [], rfl, fun _ _ => rfl⟩
  | branch i loc =>
    intro k
    exact ⟨.branch i (lab k), [loc], rfl, fun f hf => by simp only [moveStmt, agree_head hf]⟩
  | assign loc b a =>
    intro k
    cases a with
    | legacy notes =>
      exact ⟨.assign (lab k) b (.legacy notes), [loc], rfl, fun f hf => by
        simp only [moveStmt, moveAsg, agree_head hf]⟩
    | aligned segs =>
      obtain ⟨y, L, h1, h2⟩ := number_segs segs (k + 1)
      refine ⟨.assign (lab k) b (.aligned y), loc :: L, ?_, fun f hf => ?_⟩
      · simp only [placesStmt, placesAsg, h1]
        simp [List.range'_succ]
      · have := h2 f (agree_tail hf)
        dsimp only at this
        simp only [moveStmt, moveAsg, agree_head hf, this]
  | seq s t ihs iht =>
    intro k
    obtain ⟨y, L, h1, h2⟩ := ihs k
    obtain ⟨z, M, k1, k2⟩ := iht (k + L.length)
    refine ⟨.seq y z, L ++ M, ?_, fun f hf => ?_⟩
    · rw [List.length_append, labs_append, placesStmt, h1, k1]
    · rw [moveStmt, h2 f (agree_append hf).1, k2 f (agree_append hf).2]
  | choose i s t ihs iht =>
    intro k
    obtain ⟨y, L, h1, h2⟩ := ihs k
    obtain ⟨z, M, k1, k2⟩ := iht (k + L.length)
    refine ⟨.choose i y z, L ++ M, ?_, fun f hf => ?_⟩
    · rw [List.length_append, labs_append, placesStmt, h1, k1]
    · rw [moveStmt, h2 f (agree_append hf).1, k2 f (agree_append hf).2]

theorem number_block (b : Deferred) (k : Nat) : ∃ y L,
    Numbered moveBlock (fun b => placesStmt b.stmt) k b y L := by
  cases b with
  | procedural p body st =>
    obtain ⟨y, L, h1, h2⟩ := number_stmt st k
    exact ⟨.procedural p body y, L, h1, fun f hf => by rw [moveBlock, h2 f hf]⟩
  | continuous loc a =>
    obtain ⟨y, L, h1, h2⟩ := number_stmt (.assign loc true a) k
    cases y with
    | assign l b' a' =>
      have hb : b' = true := by
        obtain ⟨f, hf⟩ : ∃ f, Agree f k L :=
          ⟨fun t => (L[t.line - k]?).getD {}, fun i l hi => by simp [lab, hi]⟩
        have := h2 f hf
        simp only [moveStmt, Stmt.assign.injEq] at this
        exact this.2.1
      subst hb
      refine ⟨.continuous l a', L, h1, fun f hf => ?_⟩
      have := h2 f hf
      simp only [moveStmt, Stmt.assign.injEq] at this
      simp only [moveBlock, this]
    | _ =>
      exfalso
      obtain ⟨f, hf⟩ : ∃ f, Agree f k L :=
        ⟨fun t => (L[t.line - k]?).getD {}, fun i l hi => by simp [lab, hi]⟩
      have := h2 f hf
      cases this

mutual
theorem number_member (m : Member) (k : Nat) : ∃ y L, Numbered moveMember placesOf k m y L := by
  cases m with
  | port p => exact ⟨.port p, [], by simp [placesOf], fun _ _ => by simp [moveMember]⟩
  | «variable» sym i ds => exact ⟨.variable sym i ds, [], by simp [placesOf], fun _ _ => by simp [moveMember]⟩
  | block b =>
    obtain ⟨y, L, h1, h2⟩ := number_block b k
    exact ⟨.block y, L, by simpa [placesOf] using h1, fun f hf => by simp [moveMember, h2 f hf]⟩
  | group u ms =>
    obtain ⟨y, L, h1, h2⟩ := number_all ms k
    exact ⟨.group u y, L, by simpa [placesOf] using h1, fun f hf => by simp [moveMember, h2 f hf]⟩
  | inst u d p ms ks =>
    obtain ⟨y, L, h1, h2⟩ := number_all ms k
    exact ⟨.inst u d p y ks, L, by simpa [placesOf] using h1, fun f hf => by simp [moveMember, h2 f hf]⟩

theorem number_all (ms : List Member) (k : Nat) : ∃ y L, Numbered moveAll placesAll k ms y L := by
  cases ms with
  | nil => exact ⟨[], [], by simp [placesAll], fun _ _ => by simp [moveAll]⟩
  | cons m ms =>
    obtain ⟨y, L, h1, h2⟩ := number_member m k
    obtain ⟨z, M, k1, k2⟩ := number_all ms (k + L.length)
    refine ⟨y :: z, L ++ M, ?_, fun f hf => ?_⟩
    · rw [List.length_append, labs_append, placesAll, h1, k1]
    · rw [moveAll, h2 f (agree_append hf).1, k2 f (agree_append hf).2]
end

theorem marked_all (top : List Member) : ∃ f marked, ∀ boxed pc, Marked boxed pc f marked top := by
  obtain ⟨y, L, h1, h2⟩ := number_all top 0
  refine ⟨fun t => (L[t.line]?).getD {}, y, fun boxed pc => ⟨h2 _ fun i l hi => by simp [lab, hi], ?_⟩⟩
  refine distinct_of_places ?_
  rw [h1]
  exact List.Pairwise.map _ (fun a b h e => h (by simpa [lab] using e)) List.nodup_range'

end Verif.Proofs

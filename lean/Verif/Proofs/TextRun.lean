import Verif.Proofs.Texts

/-! Helper lemmas: what the analysis sees of statements and designs. -/
namespace Verif.Proofs
open Verif.Spec Verif.Model Verif.Props

variable {V : Type}

/-! ### Statements -/

/-- The assignments of a statement. -/
def asgsOf : SStmt → List SAsg
  | .assign _ a => [a]
  | .cond _ _ _ t => asgsOf t
  | .seq s t | .choose _ s t => asgsOf s ++ asgsOf t
  | _ => []

theorem elab_not_branch {S : SynEnv} {place : TextLoc → Nat → TextLoc} {st : SStmt} {u : Stmt}
    (h : elabStmt S place st = .ok u) : ∀ k loc, u ≠ .branch k loc := by
  intro k loc hu
  subst hu
  cases st with
  | skip | eval | dead => cases h
  | assign b a => simp only [elabStmt] at h; cases he : elabAsg S place a <;> rw [he] at h <;> cases h
  | cond k loc es t => simp only [elabStmt] at h; cases he : elabStmt S place t <;> rw [he] at h <;> cases h
  | seq s t | choose i s t =>
    simp only [elabStmt] at h
    cases he : elabStmt S place s with
    | error e => rw [he] at h; cases h
    | ok s' => cases he' : elabStmt S place t <;> rw [he, he'] at h <;> cases h

theorem enter_same {M : Meaning V} {u : Stmt} (h : ∀ k loc, u ≠ .branch k loc) (ρ : Vals V) (sel : Nat → Bool) :
    enter M ρ sel u = sel := by
  cases u with
  | branch k loc => exact absurd rfl (h k loc)
  | _ => rfl

/-- What the analysis sees of a statement. -/
theorem stmt_seen {S : SynEnv} (hc : CutsOk S.cuts) (hauto : ∀ x, S.auto x = false) {M : Sense V} {M' : Meaning V}
    (hpick : ∀ k l, M'.pick k (spot l 0) = M.pick k l) {st : SStmt} : ∀ {u : Stmt}, Suits M S st →
    (∀ a ∈ asgsOf st, ∀ i, M'.value (spot a.loc i) = partAt S M a i) → elabStmt S spot st = .ok u →
    (∀ sel ρ, run M' u sel ρ = runText M st sel ρ) ∧ Reflects M' u ∧
      ∀ y p, (∃ w ∈ allWrites u, Hits true y p w) ↔ Assigns st y p := by
  induction st with
  | skip | dead => intro u _ _ h; cases h; exact ⟨fun _ _ => rfl, trivial, by simp [allWrites, Assigns]⟩
  | eval e => intro u _ _ h; cases h; exact ⟨fun _ _ => rfl, trivial, by simp [allWrites, Assigns]⟩
  | assign b a =>
    intro u hs hv h
    simp only [elabStmt] at h
    cases he : elabAsg S spot a with
    | error e => rw [he] at h; cases h
    | ok x =>
      rw [he] at h
      cases h
      obtain ⟨h1, h2, h3⟩ := asg_seen hc hauto hs.1 hs.2 (hv a (by simp [asgsOf])) he
      refine ⟨fun sel ρ => ?_, h2, fun y p => ?_⟩
      · cases b
        · rfl
        · simp only [run, runText, if_true]; exact h1 ρ
      · cases b
        · constructor
          · rintro ⟨w, hw, hh⟩
            have : w.blocking = false := by
              cases x <;> simp only [allWrites, asgWrites, List.mem_map, List.mem_flatMap] at hw
              · obtain ⟨_, _, rfl⟩ := hw; rfl
              · obtain ⟨_, _, _, _, rfl⟩ := hw; rfl
            rw [hh.1] at this
            cases this
          · rintro ⟨hf, _⟩; cases hf
        · simp only [allWrites, Assigns, true_and]
          exact h3 y p
  | cond k loc es t ih =>
    intro u hs hv h
    simp only [elabStmt] at h
    cases he : elabStmt S spot t with
    | error e => rw [he] at h; cases h
    | ok v =>
      rw [he] at h
      cases h
      obtain ⟨h1, h2, h3⟩ := ih hs.2 hv he
      refine ⟨fun sel ρ => ?_, ⟨trivial, ⟨trivial, h2, fun _ _ _ _ e => by cases e⟩, ?_⟩, fun y p => ?_⟩
      · simp only [run, runText, enter, hpick]
        exact h1 _ ρ
      · intro k' loc' rs t' e1 e2
        cases e1
        cases e2
        rw [hpick]
        refine looks_mono hs.1 ?_
        rintro y p ⟨q, rfl, pt, hpt, g1, g2, g3⟩
        refine ⟨S.ref y pt ⟨pt.lo, pt.hi⟩, ⟨List.mem_map.2 ⟨_, notes_pathsList es pt y hpt g1, rfl⟩, hauto y⟩, rfl,
          (inRng_iff _ _).2 ?_⟩
        simp only [SynEnv.ref, BitRange.lower, BitRange.upper]
        omega
      · simp only [allWrites, List.nil_append]
        exact h3 y p
  | seq s t ih1 ih2 =>
    intro u hs hv h
    simp only [elabStmt] at h
    cases he : elabStmt S spot s with
    | error e => rw [he] at h; cases h
    | ok s' =>
      cases he' : elabStmt S spot t with
      | error e => rw [he, he'] at h; cases h
      | ok t' =>
        rw [he, he'] at h
        cases h
        obtain ⟨h1, h2, h3⟩ := ih1 hs.1 (fun a ha => hv a (by simp [asgsOf, ha])) he
        obtain ⟨k1, k2, k3⟩ := ih2 hs.2 (fun a ha => hv a (by simp [asgsOf, ha])) he'
        refine ⟨fun sel ρ => ?_, ⟨h2, k2, fun k loc _ _ e => absurd e (elab_not_branch he k loc)⟩, fun y p => ?_⟩
        · simp only [run, runText, enter_same (elab_not_branch he), h1, k1]
        · simp only [allWrites, List.mem_append, Assigns, ← h3, ← k3]
          grind
  | choose i s t ih1 ih2 =>
    intro u hs hv h
    simp only [elabStmt] at h
    cases he : elabStmt S spot s with
    | error e => rw [he] at h; cases h
    | ok s' =>
      cases he' : elabStmt S spot t with
      | error e => rw [he, he'] at h; cases h
      | ok t' =>
        rw [he, he'] at h
        cases h
        obtain ⟨h1, h2, h3⟩ := ih1 hs.1 (fun a ha => hv a (by simp [asgsOf, ha])) he
        obtain ⟨k1, k2, k3⟩ := ih2 hs.2 (fun a ha => hv a (by simp [asgsOf, ha])) he'
        refine ⟨fun sel ρ => ?_, ⟨h2, k2⟩, fun y p => ?_⟩
        · simp only [run, runText, h1, k1]
        · simp only [allWrites, List.mem_append, Assigns, ← h3, ← k3]
          grind

/-! ### Places -/

/-- The place of an assignment, conditional or case. -/
def tagOf : NodeData → Option TextLoc
  | .assignment l | .conditional l | .case l => some l
  | _ => none

theorem tag_of_kind {d : NodeData} (h : d.kind = .assignment ∨ d.kind = .conditional ∨ d.kind = .case) :
    ∃ l, tagOf d = some l := by
  cases d <;> simp [NodeData.kind, tagOf] at h ⊢

theorem constants_tag {rs : List RSrc} : ∀ d ∈ constantsOf rs, tagOf d = none := by
  induction rs with
  | nil => simp [constantsOf]
  | cons x rs ih =>
    cases x <;> simp only [constantsOf] <;> try exact ih
    intro d hd
    rcases List.mem_cons.1 hd with rfl | hd
    · rfl
    · exact ih d hd

theorem elabSegs_loc {S : SynEnv} {place : TextLoc → Nat → TextLoc} {a : SAsg} :
    ∀ {segs : List Seg} {gs : List DSeg} {i : Nat}, elabSegs S place a i segs = .ok gs →
    (gs = [] ∧ segs = []) ∨ ∃ g gs' segs', gs = g :: gs' ∧ g.loc = place a.loc i ∧ elabSegs S place a (i + 1) segs' = .ok gs' ∧
      segs'.length < segs.length := by
  intro segs gs i h
  cases segs with
  | nil => cases h; exact .inl ⟨rfl, rfl⟩
  | cons seg segs =>
    simp only [elabSegs] at h
    cases hl : (if a.force = true then Except.ok [] else elabLhs S seg seg.lhs) with
    | error e => rw [hl] at h; cases h
    | ok l =>
      cases hr : (if a.lvalueArg = true then Except.ok [] else elabRhs S a seg seg.rhs) with
      | error e => rw [hl, hr] at h; cases h
      | ok r =>
        cases hs : elabSegs S place a (i + 1) segs with
        | error e => rw [hl, hr, hs] at h; cases h
        | ok l' =>
          rw [hl, hr, hs] at h
          cases h
          exact .inr ⟨_, l', segs, rfl, rfl, hs, by simp⟩

theorem segs_once {S : SynEnv} {a : SAsg} : ∀ (n : Nat) {segs : List Seg} {gs : List DSeg} {i : Nat}, segs.length ≤ n →
    elabSegs S spot a i segs = .ok gs → ∀ d l, tagOf d = some l →
      (d ∈ asgNodes (spot a.loc 0) (.aligned gs) → ∃ j, i ≤ j ∧ l = spot a.loc j) ∧
      (asgNodes (spot a.loc 0) (.aligned gs)).count d ≤ 1 := by
  intro n
  induction n with
  | zero =>
    intro segs gs i hn h d l _
    rcases elabSegs_loc h with ⟨rfl, _⟩ | ⟨_, _, _, _, _, _, hlt⟩
    · simp [asgNodes]
    · omega
  | succ n ih =>
    intro segs gs i hn h d l hd
    rcases elabSegs_loc h with ⟨rfl, _⟩ | ⟨g, gs', segs', rfl, h2, h3, hlt⟩
    · simp [asgNodes]
    · obtain ⟨i1, i2⟩ := ih (by omega) h3 d l hd
      have hc0 : (constantsOf g.rhs).count d = 0 := by
        rw [List.count_eq_zero]
        intro hm
        rw [constants_tag d hm] at hd
        cases hd
      have hsplit : asgNodes (spot a.loc 0) (.aligned (g :: gs')) =
          .assignment g.loc :: (constantsOf g.rhs ++ asgNodes (spot a.loc 0) (.aligned gs')) := rfl
      rw [hsplit]
      constructor
      · intro hm
        rcases List.mem_cons.1 hm with rfl | hm
        · simp only [tagOf, Option.some.injEq] at hd
          exact ⟨i, Nat.le_refl _, by rw [← hd, h2]⟩
        · rcases List.mem_append.1 hm with hm | hm
          · rw [constants_tag d hm] at hd
            cases hd
          · obtain ⟨j, j1, j2⟩ := i1 hm
            exact ⟨j, by omega, j2⟩
      · rw [List.count_cons, List.count_append, hc0]
        split
        · rename_i heq
          have heq' : NodeData.assignment g.loc = d := by simpa using heq
          have : (asgNodes (spot a.loc 0) (.aligned gs')).count d = 0 := by
            rw [List.count_eq_zero]
            intro hm
            obtain ⟨j, j1, j2⟩ := i1 hm
            rw [← heq'] at hd
            simp only [tagOf, Option.some.injEq] at hd
            rw [← hd, h2] at j2
            have := (spot_inj j2).2
            omega
          omega
        · omega

/-- The places of what the analysis sees are spots of the places in the text, each used once. -/
theorem stmt_once {S : SynEnv} {st : SStmt} : ∀ {u : Stmt}, elabStmt S spot st = .ok u → ∀ d l, tagOf d = some l →
    (d ∈ stmtNodes u → ∃ m ∈ marksOf st, ∃ j, l = spot m j) ∧ ((marksOf st).Nodup → (stmtNodes u).count d ≤ 1) := by
  have both : ∀ {s t : SStmt} {s' t' : Stmt} {d : NodeData} {l : TextLoc},
      ((d ∈ stmtNodes s' → ∃ m ∈ marksOf s, ∃ j, l = spot m j) ∧ ((marksOf s).Nodup → (stmtNodes s').count d ≤ 1)) →
      ((d ∈ stmtNodes t' → ∃ m ∈ marksOf t, ∃ j, l = spot m j) ∧ ((marksOf t).Nodup → (stmtNodes t').count d ≤ 1)) →
      (d ∈ stmtNodes s' ++ stmtNodes t' → ∃ m ∈ marksOf s ++ marksOf t, ∃ j, l = spot m j) ∧
        ((marksOf s ++ marksOf t).Nodup → (stmtNodes s' ++ stmtNodes t').count d ≤ 1) := by
    intro s t s' t' d l h1 h2
    constructor
    · intro hm
      rcases List.mem_append.1 hm with hm | hm
      · obtain ⟨m, m1, m2⟩ := h1.1 hm
        exact ⟨m, List.mem_append_left _ m1, m2⟩
      · obtain ⟨m, m1, m2⟩ := h2.1 hm
        exact ⟨m, List.mem_append_right _ m1, m2⟩
    · intro hn
      rw [List.nodup_append] at hn
      obtain ⟨n1, n2, n3⟩ := hn
      rw [List.count_append]
      have c1 := h1.2 n1
      have c2 := h2.2 n2
      refine Classical.byContradiction fun hgt => ?_
      have p1 : 0 < (stmtNodes s').count d := by omega
      have p2 : 0 < (stmtNodes t').count d := by omega
      obtain ⟨m, m1, j, m2⟩ := h1.1 (List.count_pos_iff.1 p1)
      obtain ⟨m', m1', j', m2'⟩ := h2.1 (List.count_pos_iff.1 p2)
      exact n3 m m1 m' m1' (spot_inj (m2.symm.trans m2')).1
  induction st with
  | skip | eval | dead => intro u h d l _; cases h; simp [stmtNodes]
  | assign b a =>
    intro u h d l hd
    simp only [elabStmt] at h
    cases he : elabAsg S spot a with
    | error e => rw [he] at h; cases h
    | ok x =>
      rw [he] at h
      cases h
      simp only [stmtNodes, marksOf, List.mem_singleton, exists_eq_left]
      simp only [elabAsg] at he
      cases hw : assignWalk S.T.opts.resolveBits a.integral S.cuts a.lhs a.rhs with
      | legacy =>
        rw [hw] at he
        cases he
        simp only [asgNodes, List.mem_singleton]
        refine ⟨?_, fun _ => by rw [List.count_cons]; split <;> simp⟩
        rintro rfl
        simp only [tagOf, Option.some.injEq] at hd
        exact ⟨0, hd.symm⟩
      | nothing => rw [hw] at he; cases he; simp [asgNodes]
      | assertFails => rw [hw] at he; cases he
      | segments segs =>
        rw [hw] at he
        simp only at he
        cases hg : elabSegs S spot a 0 segs with
        | error e => rw [hg] at he; cases he
        | ok gs =>
          rw [hg] at he
          cases he
          obtain ⟨h1, h2⟩ := segs_once segs.length (Nat.le_refl _) hg d l hd
          exact ⟨fun hm => by obtain ⟨j, _, hj⟩ := h1 hm; exact ⟨j, hj⟩, fun _ => h2⟩
  | cond k loc es t ih =>
    intro u h d l hd
    simp only [elabStmt] at h
    cases he : elabStmt S spot t with
    | error e => rw [he] at h; cases h
    | ok v =>
      rw [he] at h
      cases h
      obtain ⟨h1, h2⟩ := ih he d l hd
      simp only [stmtNodes, List.nil_append, List.singleton_append, marksOf]
      have hbr : ∀ e, branchData k (spot loc 0) = e → tagOf e = some l → l = spot loc 0 := by
        rintro e rfl ht
        cases k <;> simp only [branchData, tagOf, Option.some.injEq, if_true, Bool.false_eq_true, if_false] at ht <;> exact ht.symm
      constructor
      · intro hm
        rcases List.mem_cons.1 hm with hm | hm
        · exact ⟨loc, List.mem_cons_self, 0, hbr d hm.symm hd⟩
        · obtain ⟨m, m1, m2⟩ := h1 hm
          exact ⟨m, List.mem_cons_of_mem _ m1, m2⟩
      · intro hn
        rw [List.nodup_cons] at hn
        have := h2 hn.2
        rw [List.count_cons]
        split
        · rename_i heq
          have heq' : branchData k (spot loc 0) = d := by simpa using heq
          have h0 : (stmtNodes v).count d = 0 := by
            rw [List.count_eq_zero]
            intro hm
            obtain ⟨m, m1, j, m2⟩ := h1 hm
            rw [hbr d heq' hd] at m2
            exact hn.1 ((spot_inj m2).1 ▸ m1)
          omega
        · omega
  | seq s t ih1 ih2 | choose i s t ih1 ih2 =>
    intro u h d l hd
    simp only [elabStmt] at h
    cases he : elabStmt S spot s with
    | error e => rw [he] at h; cases h
    | ok s' =>
      cases he' : elabStmt S spot t with
      | error e => rw [he, he'] at h; cases h
      | ok t' =>
        rw [he, he'] at h
        cases h
        exact both (ih1 he d l hd) (ih2 he' d l hd)

theorem elabBlock_stmt {S : SynEnv} {place : TextLoc → Nat → TextLoc} {b : SDeferred} {b' : Deferred}
    (h : elabBlock S place b = .ok b') : elabStmt S place (SDeferred.stmt b) = .ok b'.stmt := by
  cases b with
  | procedural k body st =>
    simp only [elabBlock] at h
    simp only [SDeferred.stmt]
    cases he : elabStmt S place st with
    | error e => rw [he] at h; cases h
    | ok u => rw [he] at h; cases h; rfl
  | continuous a =>
    simp only [elabBlock] at h
    simp only [SDeferred.stmt, elabStmt]
    cases he : elabAsg S place a with
    | error e => rw [he] at h; cases h
    | ok u => rw [he] at h; cases h; rfl

theorem elabBlock_clocked {S : SynEnv} {place : TextLoc → Nat → TextLoc} {b : SDeferred} {b' : Deferred}
    (h : elabBlock S place b = .ok b') : Clocked b' ↔ TextClocked b := by
  cases b with
  | procedural k body st =>
    simp only [elabBlock] at h
    cases he : elabStmt S place st with
    | error e => rw [he] at h; cases h
    | ok u => rw [he] at h; cases h; exact Iff.rfl
  | continuous a =>
    simp only [elabBlock] at h
    cases he : elabAsg S place a with
    | error e => rw [he] at h; cases h
    | ok u => rw [he] at h; cases h; simp [Clocked, blockEvents, EdgeTriggered, TextClocked]

/-- If the places in the text are told apart, so are those of the design seen with spots. -/
theorem seen_distinct {S : SynEnv} {boxed : Str → Str → Bool} {pc : Bool} {src : SrcDesign}
    (h : ((blocksOf (eventsAll boxed pc src.tree)).flatMap fun b => marksOf (SDeferred.stmt (src.text b))).Nodup) :
    Distinct (eventsAll boxed pc (seenAll S spot src)) := by
  intro d hd
  obtain ⟨l, hl⟩ := tag_of_kind hd
  rw [textNodes, seenAll, eventsAll_swap, blocksOf_swap]
  have key : ∀ bs : List Deferred,
      (d ∈ (bs.map (seen S spot src.text)).flatMap (fun b => stmtNodes b.stmt) →
        ∃ m ∈ bs.flatMap (fun b => marksOf (SDeferred.stmt (src.text b))), ∃ j, l = spot m j) ∧
      ((bs.flatMap fun b => marksOf (SDeferred.stmt (src.text b))).Nodup →
        ((bs.map (seen S spot src.text)).flatMap fun b => stmtNodes b.stmt).count d ≤ 1) := by
    intro bs
    induction bs with
    | nil => simp
    | cons b bs ih =>
      have hb : (d ∈ stmtNodes (seen S spot src.text b).stmt →
            ∃ m ∈ marksOf (SDeferred.stmt (src.text b)), ∃ j, l = spot m j) ∧
          ((marksOf (SDeferred.stmt (src.text b))).Nodup → (stmtNodes (seen S spot src.text b).stmt).count d ≤ 1) := by
        cases he : elabBlock S spot (src.text b) with
        | error e => simp [seen, he, Deferred.stmt, stmtNodes]
        | ok b' => simp only [seen, he]; exact stmt_once (elabBlock_stmt he) d l hl
      simp only [List.map_cons, List.flatMap_cons]
      constructor
      · intro hm
        rcases List.mem_append.1 hm with hm | hm
        · obtain ⟨m, m1, m2⟩ := hb.1 hm
          exact ⟨m, List.mem_append_left _ m1, m2⟩
        · obtain ⟨m, m1, m2⟩ := ih.1 hm
          exact ⟨m, List.mem_append_right _ m1, m2⟩
      · intro hn
        rw [List.nodup_append] at hn
        obtain ⟨n1, n2, n3⟩ := hn
        rw [List.count_append]
        have c1 := hb.2 n1
        have c2 := ih.2 n2
        refine Classical.byContradiction fun hgt => ?_
        obtain ⟨m, m1, j, m2⟩ := hb.1 (List.count_pos_iff.1 (by omega))
        obtain ⟨m', m1', j', m2'⟩ := ih.1 (List.count_pos_iff.1 (by omega))
        exact n3 m m1 m' m1' (spot_inj (m2.symm.trans m2')).1
  exact (key _).2 h

/-! ### The meaning of what is seen -/

/-- The number of the spot. -/
noncomputable def spotIdx (m : TextLoc) : Nat :=
  open Classical in if h : ∃ i, m = spot (unspot m) i then h.choose else 0

theorem spotIdx_spot (l : TextLoc) (i : Nat) : spotIdx (spot l i) = i := by
  have h : ∃ i', spot l i = spot (unspot (spot l i)) i' := ⟨i, by rw [unspot_spot]⟩
  rw [spotIdx, dif_pos h]
  have := h.choose_spec
  exact (spot_inj this).2.symm

theorem asgs_marks (st : SStmt) : ((asgsOf st).map (·.loc)).Sublist (marksOf st) := by
  induction st with
  | skip | eval | dead => exact List.Sublist.refl _
  | assign b a => exact List.Sublist.refl _
  | cond k loc es t ih => exact ih.cons _
  | seq s t ih1 ih2 | choose i s t ih1 ih2 =>
    simp only [asgsOf, marksOf, List.map_append]
    exact ih1.append ih2

theorem find_loc {l : List SAsg} (h : (l.map (·.loc)).Nodup) {a : SAsg} (ha : a ∈ l) :
    l.find? (fun x => decide (x.loc = a.loc)) = some a := by
  induction l with
  | nil => cases ha
  | cons b l ih =>
    simp only [List.map_cons, List.nodup_cons] at h
    rw [List.find?_cons]
    rcases List.mem_cons.1 ha with rfl | ha
    · simp
    · have : b.loc ≠ a.loc := fun e => h.1 (e ▸ List.mem_map.2 ⟨a, ha, rfl⟩)
      simp [this, ih h.2 ha]

/-- There is a meaning for what the analysis sees that goes with that of the text. -/
theorem meaning_exists (S : SynEnv) (M : Sense V) (feed : Nat → Nat → Vals V → V) {l : List SAsg}
    (h : (l.map (·.loc)).Nodup) : ∃ M' : Meaning V, (∀ k m, M'.pick k (spot m 0) = M.pick k m) ∧
      (∀ a ∈ l, ∀ i, M'.value (spot a.loc i) = partAt S M a i) ∧ M'.feed = feed := by
  refine ⟨⟨fun m => match l.find? (fun x => decide (x.loc = unspot m)) with
    | some a => partAt S M a (spotIdx m)
    | none => fun _ _ _ => M.bit .zero, fun k m => M.pick k (unspot m), feed⟩, fun k m => ?_, fun a ha i => ?_, rfl⟩
  · simp only [unspot_spot]
  · simp only [unspot_spot, find_loc h ha, spotIdx_spot]

/-! ### Faults -/

/-- The origin is not a port, and a signal if it is a select. -/
def Rooted' : Origin → Prop
  | .sig p _ => p.root ≠ none
  | .port .. => False
  | _ => True

mutual
theorem orig_rooted : ∀ (e : SExpr), Rooted e → ∀ k, ∀ o ∈ orig e k, Rooted' o
  | .lsp w p sels, h, k, o, ho => by
    simp only [orig, List.mem_singleton] at ho
    subst ho
    simp only [Rooted] at h
    exact h
  | .concat w ops, h, k, o, ho => by
    simp only [orig] at ho
    simp only [Rooted] at h
    exact origOps_rooted ops h k o ho
  | .repl w none inner, h, k, o, ho => by
    simp only [orig, List.mem_singleton] at ho
    subst ho
    trivial
  | .repl w (some _) inner, h, k, o, ho => by
    simp only [orig] at ho
    simp only [Rooted] at h
    exact orig_rooted inner h _ o ho
  | .conv w s f inner, h, k, o, ho => by
    simp only [orig] at ho
    simp only [Rooted] at h
    repeat' split at ho
    all_goals first
      | exact orig_rooted inner h _ o ho
      | (simp only [List.mem_singleton] at ho; subst ho; trivial)
  | .condOp w n pt more c l r, h, k, o, ho => by
    simp only [orig] at ho
    simp only [Rooted] at h
    split at ho
    · simp only [List.mem_singleton] at ho; subst ho; trivial
    · simp only [List.mem_append, List.mem_singleton] at ho
      rcases ho with (ho | ho) | rfl
      · exact orig_rooted l h.1 _ o ho
      · exact orig_rooted r h.2 _ o ho
      · trivial
  | .other w f reads, h, k, o, ho => by
    simp only [orig] at ho
    split at ho <;> (simp only [List.mem_singleton] at ho; subst ho; trivial)

theorem origOps_rooted : ∀ (es : List SExpr), RootedOps es → ∀ k, ∀ o ∈ origOps es k, Rooted' o
  | [], _, _, _, ho => by simp [origOps] at ho
  | e :: es, h, k, o, ho => by
    simp only [origOps] at ho
    simp only [RootedOps] at h
    split at ho
    · exact origOps_rooted es h.2 _ o ho
    · exact orig_rooted e h.1 _ o ho
end

theorem elabLhs_total (S : SynEnv) (seg : Seg) : ∀ (xs : List Src), (∀ s ∈ xs, Rooted' (originAt seg.lo s)) →
    ∃ rs, elabLhs S seg xs = .ok rs
  | [], _ => ⟨[], rfl⟩
  | s :: xs, h => by
    obtain ⟨rs, hrs⟩ := elabLhs_total S seg xs fun s hs => h s (by simp [hs])
    have hs := h s (by simp)
    cases s with
    | lsp p lo hi =>
      cases hp : p.root with
      | none => exact absurd hp hs
      | some y => exact ⟨_, by simp only [elabLhs, hp, hrs]; rfl⟩
    | _ => exact ⟨rs, by simp only [elabLhs, hrs]⟩

theorem elabRhs_total (S : SynEnv) (a : SAsg) (seg : Seg) : ∀ (xs : List Src),
    (∀ s ∈ xs, Rooted' (originAt seg.lo s)) → ∃ rs, elabRhs S a seg xs = .ok rs
  | [], _ => ⟨[], rfl⟩
  | s :: xs, h => by
    obtain ⟨rs, hrs⟩ := elabRhs_total S a seg xs fun s hs => h s (by simp [hs])
    have hs := h s (by simp)
    cases s with
    | lsp p lo hi =>
      cases hp : p.root with
      | none => exact absurd hp hs
      | some y => exact ⟨_, by simp only [elabRhs, hp, hrs]; rfl⟩
    | portNode => exact hs.elim
    | _ => exact ⟨_, by simp only [elabRhs, hrs]; rfl⟩

theorem elabSegs_total (S : SynEnv) (place : TextLoc → Nat → TextLoc) (a : SAsg) : ∀ (segs : List Seg) (i : Nat),
    (∀ seg ∈ segs, (∀ s ∈ seg.lhs, Rooted' (originAt seg.lo s)) ∧ ∀ s ∈ seg.rhs, Rooted' (originAt seg.lo s)) →
    ∃ gs, elabSegs S place a i segs = .ok gs
  | [], _, _ => ⟨[], rfl⟩
  | seg :: segs, i, h => by
    obtain ⟨h1, h2⟩ := h seg (by simp)
    obtain ⟨l, hl⟩ : ∃ l, (if a.force then Except.ok [] else elabLhs S seg seg.lhs) = .ok l := by
      cases a.force
      · exact elabLhs_total S seg _ h1
      · exact ⟨[], rfl⟩
    obtain ⟨r, hr⟩ : ∃ r, (if a.lvalueArg then Except.ok [] else elabRhs S a seg seg.rhs) = .ok r := by
      cases a.lvalueArg
      · exact elabRhs_total S a seg _ h2
      · exact ⟨[], rfl⟩
    obtain ⟨gs, hg⟩ := elabSegs_total S place a segs (i + 1) fun s hs => h s (by simp [hs])
    exact ⟨_, by simp only [elabSegs, hl, hr, hg]; rfl⟩

theorem elabAsg_total {S : SynEnv} (hc : CutsOk S.cuts) (place : TextLoc → Nat → TextLoc) {a : SAsg}
    (hl : WT S.cuts a.lhs) (hr : WT S.cuts a.rhs) (rl : Rooted a.lhs) (rr : Rooted a.rhs) :
    ∃ x, elabAsg S place a = .ok x := by
  cases hw : assignWalk S.T.opts.resolveBits a.integral S.cuts a.lhs a.rhs with
  | legacy => exact ⟨_, by simp only [elabAsg, hw]; rfl⟩
  | nothing => exact ⟨_, by simp only [elabAsg, hw]; rfl⟩
  | assertFails => exact absurd hw (assign_never_asserts _ _ _ _ _)
  | segments segs =>
    obtain ⟨b1, b2, b3⟩ := (assign_walk_choice hc hl hr S.T.opts.resolveBits a.integral).1.1 ⟨segs, hw⟩
    obtain ⟨segs', g1, g2, g3⟩ := assign_origins hc hl hr b3
    rw [b1, b2, g1] at hw
    cases hw
    have hlt : ∀ {lo hi : Nat} {segs : List Seg}, TiledSeg lo hi segs → ∀ seg ∈ segs, seg.lo < seg.hi := by
      intro lo hi segs
      induction segs generalizing lo with
      | nil => intro _ s hs; cases hs
      | cons s segs ih =>
        intro h t ht
        rcases List.mem_cons.1 ht with rfl | ht
        · exact h.2.1
        · exact ih h.2.2 t ht
    obtain ⟨gs, hg⟩ := elabSegs_total S place a segs 0 fun seg hs => by
      obtain ⟨_, _, _, k4⟩ := g3 seg hs
      obtain ⟨o1, o2⟩ := k4 seg.lo (Nat.le_refl _) (hlt g2 seg hs)
      refine ⟨fun s hs => orig_rooted _ rl seg.lo _ ?_, fun s hs => orig_rooted _ rr seg.lo _ ?_⟩
      · rw [← o1]; exact List.mem_map_of_mem hs
      · rw [← o2]; exact List.mem_map_of_mem hs
    exact ⟨.aligned gs, by simp only [elabAsg, b1, b2, g1, hg]⟩

theorem elabStmt_total {S : SynEnv} (hc : CutsOk S.cuts) (place : TextLoc → Nat → TextLoc) {st : SStmt} :
    Legal S st → ∃ u, elabStmt S place st = .ok u := by
  induction st with
  | skip | eval | dead => exact fun _ => ⟨_, rfl⟩
  | assign b a =>
    intro h
    obtain ⟨x, hx⟩ := elabAsg_total hc place h.1 h.2.1 h.2.2.1 h.2.2.2
    exact ⟨_, by simp only [elabStmt, hx]; rfl⟩
  | cond k loc es t ih =>
    intro h
    obtain ⟨u, hu⟩ := ih h
    exact ⟨_, by simp only [elabStmt, hu]; rfl⟩
  | seq s t ih1 ih2 | choose i s t ih1 ih2 =>
    intro h
    obtain ⟨u, hu⟩ := ih1 h.1
    obtain ⟨v, hv⟩ := ih2 h.2
    exact ⟨_, by simp only [elabStmt, hu, hv]; rfl⟩

theorem elabBlock_total {S : SynEnv} (hc : CutsOk S.cuts) (place : TextLoc → Nat → TextLoc) {b : SDeferred}
    (h : Legal S (SDeferred.stmt b)) : ∃ b', elabBlock S place b = .ok b' := by
  cases b with
  | procedural k body st =>
    obtain ⟨u, hu⟩ := elabStmt_total hc place (st := st) h
    exact ⟨_, by simp only [elabBlock, hu]; rfl⟩
  | continuous a =>
    obtain ⟨x, hx⟩ := elabAsg_total hc place h.1 h.2.1 h.2.2.1 h.2.2.2
    exact ⟨_, by simp only [elabBlock, hx]; rfl⟩

end Verif.Proofs

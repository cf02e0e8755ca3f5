import Verif.Spec.Nested

namespace Verif.Proofs
open Verif.Model Verif.Spec

/-- Uses noted one after the other, then something else. -/
theorem noteRefs_cat {c : DfaCtx} {b : Bool} (xs ys : List Note) (s : Dfa) :
    s.noteRefs c b (xs ++ ys) =
      match s.noteRefs c b xs with
      | .error f => .error f
      | .ok s1 => s1.noteRefs c b ys := by
  induction xs generalizing s with
  | nil => rfl
  | cons x xs ih =>
    simp only [List.cons_append, Dfa.noteRefs]
    cases s.noteRef c b x with
    | error f => rfl
    | ok s1 => exact ih s1

/-- The kind of the last assignment. -/
def lastKind (blk : Bool) : List (TextLoc × Bool × List Note) → Bool
  | [] => blk
  | g :: gs => lastKind g.2.1 gs

theorem exec_inTurn_append {c : DfaCtx} (gs hs : List (TextLoc × Bool × List Note)) (s : Dfa) :
    s.exec c (inTurn (gs ++ hs)) =
      match s.exec c (inTurn gs) with
      | .error f => .error f
      | .ok s1 => s1.exec c (inTurn hs) := by
  induction gs generalizing s with
  | nil => rfl
  | cons g gs ih =>
    obtain ⟨l, b, ns⟩ := g
    simp only [List.cons_append, inTurn, Dfa.exec]
    cases s.assign c l b (.legacy ns) with
    | error f => rfl
    | ok s1 => exact ih s1

theorem lastKind_append (gs hs : List (TextLoc × Bool × List Note)) (blk : Bool) :
    lastKind blk (gs ++ hs) = lastKind (lastKind blk gs) hs := by
  induction gs generalizing blk with
  | nil => rfl
  | cons g gs ih => exact ih _

theorem lastKind_lengthen (gs : List (TextLoc × Bool × List Note)) (more : List Note) (blk : Bool) :
    lastKind blk (lengthen gs more) = lastKind blk gs := by
  induction gs generalizing blk with
  | nil => rfl
  | cons g gs ih =>
    cases gs with
    | nil => rfl
    | cons h hs => exact ih g.2.1

theorem exec_lengthen {c : DfaCtx} (gs : List (TextLoc × Bool × List Note)) (more : List Note) (blk : Bool)
    (hne : gs ≠ []) (s : Dfa) :
    s.exec c (inTurn (lengthen gs more)) =
      match s.exec c (inTurn gs) with
      | .error f => .error f
      | .ok s1 => s1.noteRefs c (lastKind blk gs) more := by
  induction gs generalizing s blk with
  | nil => exact absurd rfl hne
  | cons g gs ih =>
    obtain ⟨l, b, ns⟩ := g
    cases gs with
    | nil =>
      simp only [lengthen, inTurn, Dfa.exec, Dfa.assign, lastKind]
      cases s.startAssign l with
      | error f => rfl
      | ok s1 =>
        simp only [noteRefs_cat]
        cases s1.noteRefs c b ns with
        | error f => rfl
        | ok s2 =>
          simp only
          cases s2.noteRefs c b more <;> rfl
    | cons h hs =>
      simp only [lengthen, inTurn, Dfa.exec]
      cases s.assign c l b (.legacy ns) with
      | error f => rfl
      | ok s1 => exact ih b (by simp) s1

/-- The visit of an expression, with the assignments taken out. -/
theorem visitE_takenOut {c : DfaCtx} {node cond : Option Nat} (v : EVis) (hv : SideWise v) (s : Dfa) (blk : Bool) :
    s.visitE c node cond blk v =
      match s.noteRefs c blk (takenOut v).1 with
      | .error f => .error f
      | .ok s1 =>
        match s1.exec c (inTurn (takenOut v).2) with
        | .error f => .error f
        | .ok s2 => .ok (s2, lastKind blk (takenOut v).2) := by
  induction v generalizing s blk with
  | done => rfl
  | note x r ih =>
    simp only [Dfa.visitE, takenOut, Dfa.noteRefs]
    cases s.noteRef c blk x with
    | error f => rfl
    | ok s1 => exact ih hv s1 blk
  | asg l b body r ihb ihr =>
    simp only [Dfa.visitE, takenOut, Dfa.noteRefs, exec_inTurn_append, lastKind_append, lastKind_lengthen]
    rw [exec_lengthen _ _ blk (by simp)]
    simp only [inTurn, Dfa.exec, Dfa.assign, lastKind]
    cases s.startAssign l with
    | error f => rfl
    | ok s1 =>
      simp only [ihb hv.1]
      cases s1.noteRefs c b (takenOut body).1 with
      | error f => rfl
      | ok s2 =>
        simp only
        cases s2.exec c (inTurn (takenOut body).2) with
        | error f => rfl
        | ok s3 =>
          simp only [ihr hv.2]
          cases s3.noteRefs c (lastKind b (takenOut body).2) (takenOut r).1 <;> rfl
  | src _ _ => exact hv.elim
  | aligned _ _ _ => exact hv.elim
  | seg _ _ _ _ => exact hv.elim

theorem takenOut_reads (v : EVis) (h : OnlyReads v) : ∀ x ∈ (takenOut v).1, x.write = false := by
  induction v with
  | done => intro x hx; cases hx
  | note y r ih =>
    intro x hx
    rcases List.mem_cons.1 hx with rfl | hx
    · exact h.1
    · exact ih h.2 x hx
  | _ => intro x hx; simp [takenOut] at hx

/-- Whether an assignment is blocking does not matter for reads. -/
theorem noteRefs_reads {c : DfaCtx} {b : Bool} (xs : List Note) (h : ∀ x ∈ xs, x.write = false) (s : Dfa) :
    s.noteRefs c b xs = s.noteRefs c true ((xs.map (·.ref)).map fun r => ⟨false, r⟩) := by
  induction xs generalizing s with
  | nil => rfl
  | cons x xs ih =>
    have hx := h x (by simp)
    obtain ⟨w, r⟩ := x
    simp only at hx
    subst hx
    have e : s.noteRef c b ⟨false, r⟩ = s.noteRef c true ⟨false, r⟩ := rfl
    simp only [List.map_cons, Dfa.noteRefs, e]
    cases s.noteRef c true ⟨false, r⟩ with
    | error f => rfl
    | ok s1 => exact ih (fun x hx => h x (by simp [hx])) s1

theorem execN_unnest {c : DfaCtx} (st : NStmt) (h : NFits st) (s : Dfa) : s.execN c st = s.exec c (unnest st) := by
  induction st generalizing s with
  | plain st => rfl
  | expr v =>
    simp only [Dfa.execN, unnest, Dfa.exec, visitE_takenOut v h.1]
    rw [noteRefs_reads _ (takenOut_reads v h.2)]
    cases s.noteRefs c true ((((takenOut v).1).map (·.ref)).map fun r => ⟨false, r⟩) with
    | error f => rfl
    | ok s1 =>
      simp only
      cases s1.exec c (inTurn (takenOut v).2) <;> rfl
  | seq a b iha ihb =>
    simp only [Dfa.execN, unnest, Dfa.exec, iha h.1]
    cases s.exec c (unnest a) with
    | error f => rfl
    | ok s1 => exact ihb h.2 s1
  | choose f a b iha ihb =>
    simp only [Dfa.execN, unnest, Dfa.exec, iha h.1]
    cases s.exec c (unnest a) with
    | error f => rfl
    | ok s1 =>
      simp only [ihb h.2]
      cases ({ s1 with cur := s.cur } : Dfa).exec c (unnest b) <;> rfl

/-- The writes of assignments one after the other. -/
def groupWrites (gs : List (TextLoc × Bool × List Note)) : List Wr :=
  gs.flatMap fun g => asgWrites g.1 g.2.1 (.legacy g.2.2)

theorem asgWrites_append {l : TextLoc} {b : Bool} (xs ys : List Note) :
    asgWrites l b (.legacy (xs ++ ys)) = asgWrites l b (.legacy xs) ++ asgWrites l b (.legacy ys) := by
  simp [asgWrites, targets]

theorem asgWrites_reads {l : TextLoc} {b : Bool} {xs : List Note} (h : ∀ x ∈ xs, x.write = false) :
    asgWrites l b (.legacy xs) = [] := by
  simp only [asgWrites, targets, List.map_eq_nil_iff, List.filter_eq_nil_iff]
  intro x hx
  simp [h x hx]

theorem groupWrites_lengthen (gs : List (TextLoc × Bool × List Note)) {more : List Note}
    (h : ∀ x ∈ more, x.write = false) : groupWrites (lengthen gs more) = groupWrites gs := by
  induction gs with
  | nil => rfl
  | cons g gs ih =>
    cases gs with
    | nil =>
      obtain ⟨l, b, ns⟩ := g
      simp [lengthen, groupWrites, asgWrites_append, asgWrites_reads h]
    | cons k ks =>
      have : groupWrites (g :: lengthen (k :: ks) more) = groupWrites (g :: k :: ks) := by
        simp only [groupWrites, List.flatMap_cons] at ih ⊢
        rw [ih]
      exact this

theorem takenOut_writes (v : EVis) (hw : SideWise v) (hl : PlainLhs v) (loc : TextLoc) (b : Bool) :
    asgWrites loc b (.legacy (takenOut v).1) ++ groupWrites (takenOut v).2 = ownWrites loc b v := by
  induction v generalizing loc b with
  | done => rfl
  | note x r ih =>
    have e : asgWrites loc b (.legacy (x :: (takenOut r).1)) =
        (if x.write && !x.ref.auto then [⟨x.ref.sym, x.ref.bounds, loc, b⟩] else []) ++
          asgWrites loc b (.legacy (takenOut r).1) := by
      simp only [asgWrites, targets, List.filter_cons]
      split <;> simp
    simp only [takenOut, ownWrites, e, List.append_assoc]
    rw [ih hw hl]
  | asg l k body r ihb ihr =>
    have hr := takenOut_reads r hl.2.1
    have e1 := ihr hw.2 hl.2.2 loc b
    rw [asgWrites_reads hr, List.nil_append] at e1
    have e2 : groupWrites ((l, k, (takenOut body).1) :: (takenOut body).2) = ownWrites l k body := ihb hw.1 hl.1 l k
    have e3 : ∀ gs hs, groupWrites (gs ++ hs) = groupWrites gs ++ groupWrites hs := by
      intro gs hs; simp [groupWrites]
    simp only [takenOut, ownWrites, e3, groupWrites_lengthen _ hr, e1, e2]
    rfl
  | src _ _ => exact hw.elim
  | aligned _ _ _ => exact hw.elim
  | seg _ _ _ _ => exact hw.elim

theorem expr_writes {v : EVis} (hw : SideWise v) (ho : OnlyReads v) (hl : PlainLhs v) :
    groupWrites (takenOut v).2 = exprWrites v := by
  have h := takenOut_writes v hw hl {} true
  rwa [asgWrites_reads (takenOut_reads v ho), List.nil_append] at h

theorem runs_inTurn (gs : List (TextLoc × Bool × List Note)) (tr : List Wr) :
    Runs (inTurn gs) tr ↔ tr = groupWrites gs := by
  induction gs generalizing tr with
  | nil =>
    constructor
    · intro h; cases h; rfl
    · rintro rfl; exact .skip
  | cons g gs ih =>
    obtain ⟨l, b, ns⟩ := g
    constructor
    · intro h
      cases h with
      | seq h1 h2 =>
        cases h1
        rw [(ih _).1 h2]
        rfl
    · rintro rfl
      exact .seq (.assign l b (.legacy ns)) ((ih _).2 rfl)

theorem unnest_runs (st : NStmt) (h : NFits st) (hl : NPlainLhs st) (tr : List Wr) :
    Runs (unnest st) tr ↔ NRuns st tr := by
  induction st generalizing tr with
  | plain s =>
    constructor
    · exact .plain
    · intro h; cases h; assumption
  | expr v =>
    have e := expr_writes h.1 h.2 hl
    constructor
    · intro hr
      cases hr with
      | seq h1 h2 =>
        cases h1
        rw [(runs_inTurn _ _).1 h2, e]
        exact .expr v
    · intro hr
      cases hr
      rw [← e]
      exact .seq (.reads _) ((runs_inTurn _ _).2 rfl)
  | seq a b iha ihb =>
    constructor
    · intro hr
      cases hr with
      | seq h1 h2 => exact .seq ((iha h.1 hl.1 _).1 h1) ((ihb h.2 hl.2 _).1 h2)
    · intro hr
      cases hr with
      | seq h1 h2 => exact .seq ((iha h.1 hl.1 _).2 h1) ((ihb h.2 hl.2 _).2 h2)
  | choose f a b iha ihb =>
    constructor
    · intro hr
      cases hr with
      | first h1 => exact .first ((iha h.1 hl.1 _).1 h1)
      | second h1 => exact .second ((ihb h.2 hl.2 _).1 h1)
    · intro hr
      cases hr with
      | first h1 => exact .first ((iha h.1 hl.1 _).2 h1)
      | second h1 => exact .second ((ihb h.2 hl.2 _).2 h1)

theorem allWrites_inTurn (gs : List (TextLoc × Bool × List Note)) : allWrites (inTurn gs) = groupWrites gs := by
  induction gs with
  | nil => rfl
  | cons g gs ih =>
    obtain ⟨l, b, ns⟩ := g
    simp only [inTurn, allWrites, ih]
    rfl

theorem unnest_all (st : NStmt) (h : NFits st) (hl : NPlainLhs st) : allWrites (unnest st) = nWrites st := by
  induction st with
  | plain s => rfl
  | expr v =>
    simp only [unnest, allWrites, allWrites_inTurn, nWrites, List.nil_append]
    exact expr_writes h.1 h.2 hl
  | seq a b iha ihb => simp only [unnest, allWrites, nWrites, iha h.1 hl.1, ihb h.2 hl.2]
  | choose f a b iha ihb => simp only [unnest, allWrites, nWrites, iha h.1 hl.1, ihb h.2 hl.2]

theorem live_inTurn (gs : List (TextLoc × Bool × List Note)) : live (inTurn gs) = true := by
  induction gs with
  | nil => rfl
  | cons g gs ih => simp [inTurn, live, ih]

theorem unnest_live (st : NStmt) : live (unnest st) = nLive st := by
  induction st with
  | plain s => rfl
  | expr v => simp [unnest, live, live_inTurn, nLive]
  | seq a b iha ihb => simp only [unnest, live, nLive, iha, ihb]
  | choose f a b iha ihb => simp only [unnest, live, nLive, iha, ihb]

theorem nba_inTurn (r : Bool) (gs : List (TextLoc × Bool × List Note)) :
    nbaWrites r (inTurn gs) = if r then (groupWrites gs).filter (!·.blocking) else [] := by
  induction gs generalizing r with
  | nil => cases r <;> rfl
  | cons g gs ih =>
    obtain ⟨l, b, ns⟩ := g
    have e : groupWrites ((l, b, ns) :: gs) = asgWrites l b (.legacy ns) ++ groupWrites gs := rfl
    simp only [inTurn, nbaWrites, live, Bool.and_true, ih, e, List.filter_append]
    have hb : (asgWrites l b (.legacy ns)).filter (!·.blocking) = if b then [] else asgWrites l b (.legacy ns) := by
      cases b with
      | true => simp [asgWrites]
      | false => simp [asgWrites]
    rw [hb]
    cases b <;> cases r <;> simp

theorem unnest_nba (st : NStmt) (h : NFits st) (hl : NPlainLhs st) (r : Bool) :
    nbaWrites r (unnest st) = nNba r st := by
  induction st generalizing r with
  | plain s => rfl
  | expr v =>
    simp only [unnest, nbaWrites, List.nil_append, live, Bool.and_true, nba_inTurn, nNba,
      expr_writes h.1 h.2 hl]
  | seq a b iha ihb => simp only [unnest, nbaWrites, nNba, iha h.1 hl.1, ihb h.2 hl.2, unnest_live]
  | choose f a b iha ihb => simp only [unnest, nbaWrites, nNba, iha h.1 hl.1, ihb h.2 hl.2]

/-- What `isBlocking` is after the visit. -/
theorem visitE_flag {c : DfaCtx} (v : EVis) : ∀ {node cond : Option Nat} {s s' : Dfa} {blk blk' : Bool},
    s.visitE c node cond blk v = .ok (s', blk') → blk' = lastBegun blk v := by
  induction v with
  | done =>
    intro node cond s s' blk blk' h
    simp only [Dfa.visitE, Except.ok.injEq, Prod.mk.injEq] at h
    exact h.2.symm
  | note x r ih =>
    intro node cond s s' blk blk' h
    simp only [Dfa.visitE] at h
    split at h
    · cases h
    · exact ih h
  | src x r ih =>
    intro node cond s s' blk blk' h
    simp only [Dfa.visitE] at h
    split at h
    · cases h
    · exact ih h
  | asg l b body r ihb ihr =>
    intro node cond s s' blk blk' h
    simp only [Dfa.visitE] at h
    split at h
    · cases h
    · split at h
      · cases h
      · rename_i h2
        rw [ihr h, ihb h2]; rfl
  | aligned b body r ihb ihr =>
    intro node cond s s' blk blk' h
    simp only [Dfa.visitE] at h
    split at h
    · cases h
    · rename_i h2
      rw [ihr h, ihb h2]; rfl
  | seg l lhs body r ihb ihr =>
    intro node cond s s' blk blk' h
    simp only [Dfa.visitE] at h
    split at h
    · cases h
    · split at h
      · cases h
      · split at h
        · cases h
        · rename_i h2
          rw [ihr h, ihb h2]; rfl

theorem visitE_notes {c : DfaCtx} {node cond : Option Nat} (xs : List Note) (s : Dfa) (b : Bool) :
    s.visitE c node cond b (ofNotes xs) = (s.noteRefs c b xs).map fun s' => (s', b) := by
  induction xs generalizing s with
  | nil => rfl
  | cons x xs ih =>
    simp only [ofNotes, Dfa.visitE, Dfa.noteRefs]
    cases s.noteRef c b x with
    | error f => rfl
    | ok s1 => exact ih s1

theorem visitE_srcs {c : DfaCtx} {node cond : Option Nat} (xs : List RSrc) (s : Dfa) (b : Bool) :
    s.visitE c node cond b (ofSrcs xs) = (s.segRhs c b xs).map fun s' => (s', b) := by
  induction xs generalizing s with
  | nil => rfl
  | cons x xs ih =>
    simp only [ofSrcs, Dfa.visitE, Dfa.segRhs]
    cases s.segSrc c b x with
    | error f => rfl
    | ok s1 => exact ih s1

theorem visitE_segs {c : DfaCtx} {node cond : Option Nat} (gs : List DSeg) (s : Dfa) (b : Bool) :
    s.visitE c node cond b (ofSegs gs) = (s.segments c b node cond gs).map fun s' => (s', b) := by
  induction gs generalizing s with
  | nil => rfl
  | cons g gs ih =>
    simp only [ofSegs, Dfa.visitE, Dfa.segments, Dfa.segBody]
    cases ({ s with cur := { s.cur with node := node, cond := cond } } : Dfa).startAssign g.loc with
    | error f => rfl
    | ok s1 =>
      simp only
      cases s1.segLhs b g.lhs with
      | error f => rfl
      | ok s2 =>
        simp only [visitE_srcs]
        cases s2.segRhs c b g.rhs with
        | error f => rfl
        | ok s3 => exact ih s3

theorem visitE_asg {c : DfaCtx} {node cond : Option Nat} (loc : TextLoc) (b blk : Bool) (a : Asg) (s : Dfa) :
    s.visitE c node cond blk (ofAsg loc b a) = (s.assign c loc b a).map fun s' => (s', b) := by
  cases a with
  | legacy notes =>
    simp only [ofAsg, Dfa.visitE, Dfa.assign]
    cases s.startAssign loc with
    | error f => rfl
    | ok s1 =>
      simp only [visitE_notes]
      cases s1.noteRefs c b notes <;> rfl
  | aligned segs =>
    simp only [ofAsg, Dfa.visitE, Dfa.assign, visitE_segs]
    cases s.segments c b s.cur.node s.cur.cond segs <;> rfl

end Verif.Proofs

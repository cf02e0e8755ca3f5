import Verif.Proofs.TextRun
import Verif.Spec.TextClock

/-! Helper lemmas: what the analysis sees of non-blocking assignments. -/
namespace Verif.Proofs
open Verif.Spec Verif.Model Verif.Props

variable {V : Type}

/-- Writes replace the values of the bits they hit and leave the others. -/
theorem store_over (M : Meaning V) (ρ0 : Vals V) (x : Nat) (p : Int) : ∀ (ws : List Wr) (ρ ν : Vals V),
    ((∃ w ∈ ws, w.sym = x ∧ w.bounds.lower ≤ p ∧ p ≤ w.bounds.upper) → store M ρ0 ws ν x p = store M ρ0 ws ρ x p) ∧
    ((¬ ∃ w ∈ ws, w.sym = x ∧ w.bounds.lower ≤ p ∧ p ≤ w.bounds.upper) → store M ρ0 ws ν x p = ν x p)
  | [], ρ, ν => ⟨by simp, fun _ => rfl⟩
  | w :: ws, ρ, ν => by
    have ih := fun ρ ν => store_over M ρ0 x p ws ρ ν
    simp only [store]
    by_cases hin : ∃ w' ∈ ws, w'.sym = x ∧ w'.bounds.lower ≤ p ∧ p ≤ w'.bounds.upper
    · refine ⟨fun _ => (ih _ _).1 hin, fun h => ?_⟩
      obtain ⟨w', h1, h2⟩ := hin
      exact absurd ⟨w', List.mem_cons_of_mem _ h1, h2⟩ h
    · constructor
      · rintro ⟨w', h1, h2⟩
        rcases List.mem_cons.1 h1 with rfl | h1
        · rw [(ih ρ _).2 hin, (ih ρ _).2 hin, if_pos h2, if_pos h2]
        · exact absurd ⟨w', h1, h2⟩ hin
      · intro h
        rw [(ih ρ _).2 hin, if_neg fun h2 => h ⟨w, List.mem_cons_self, h2⟩]

/-- Whether the assignment is blocking does not matter to what is stored. -/
theorem store_kind (M : Meaning V) (loc : TextLoc) (b : Bool) (a : Asg) (ρ ν : Vals V) :
    store M ρ (asgWrites loc b a) ν = store M ρ (asgWrites loc true a) ν := by
  have key : ∀ (ws ws' : List Wr), ws.map (fun w => (w.sym, w.bounds, w.loc)) = ws'.map (fun w => (w.sym, w.bounds, w.loc)) →
      ∀ ν, store M ρ ws ν = store M ρ ws' ν := by
    intro ws
    induction ws with
    | nil =>
      intro ws' h ν
      cases ws' with
      | nil => rfl
      | cons _ _ => simp at h
    | cons w ws ih =>
      intro ws' h ν
      cases ws' with
      | nil => simp at h
      | cons w' ws' =>
        simp only [List.map_cons, List.cons.injEq, Prod.mk.injEq] at h
        obtain ⟨⟨h1, h2, h3⟩, h4⟩ := h
        simp only [store, h1, h2, h3]
        exact ih ws' h4 _
  refine key _ _ ?_ ν
  cases a with
  | legacy notes => simp [asgWrites, Function.comp_def]
  | aligned segs => simp [asgWrites, List.map_flatMap, Function.comp_def]

theorem writes_kind {loc : TextLoc} {a : Asg} {x : Nat} {p : Int} (b : Bool) :
    (∃ w ∈ asgWrites loc b a, Hits b x p w) ↔ ∃ w ∈ asgWrites loc b a, w.sym = x ∧ w.bounds.lower ≤ p ∧ p ≤ w.bounds.upper := by
  constructor
  · rintro ⟨w, h1, h2, h3, h4⟩
    exact ⟨w, h1, h3, (inRng_iff _ _).1 h4⟩
  · rintro ⟨w, h1, h2, h3⟩
    refine ⟨w, h1, ?_, h2, (inRng_iff _ _).2 h3⟩
    cases a <;> simp only [asgWrites, List.mem_map, List.mem_flatMap] at h1
    · obtain ⟨_, _, rfl⟩ := h1; rfl
    · obtain ⟨_, _, _, _, rfl⟩ := h1; rfl

theorem writes_bits {loc : TextLoc} {a : Asg} {x : Nat} {p : Int} (b : Bool) :
    (∃ w ∈ asgWrites loc b a, w.sym = x ∧ w.bounds.lower ≤ p ∧ p ≤ w.bounds.upper) ↔
      ∃ w ∈ asgWrites loc true a, w.sym = x ∧ w.bounds.lower ≤ p ∧ p ≤ w.bounds.upper := by
  cases a with
  | legacy notes =>
    simp only [asgWrites, List.mem_map]
    constructor <;> (rintro ⟨_, ⟨r, h1, rfl⟩, h2⟩; exact ⟨_, ⟨r, h1, rfl⟩, h2⟩)
  | aligned segs =>
    simp only [asgWrites, List.mem_map, List.mem_flatMap]
    constructor <;> (rintro ⟨_, ⟨g, h0, r, h1, rfl⟩, h2⟩; exact ⟨_, ⟨g, h0, r, h1, rfl⟩, h2⟩)

/-- What the analysis sees of a statement schedules what the text schedules. -/
theorem stmt_later {S : SynEnv} (hc : CutsOk S.cuts) (hauto : ∀ x, S.auto x = false) {M : Sense V} {M' : Meaning V}
    (hpick : ∀ k l, M'.pick k (spot l 0) = M.pick k l) {st : SStmt} : ∀ {u : Stmt}, Suits M S st →
    (∀ a ∈ asgsOf st, ∀ i, M'.value (spot a.loc i) = partAt S M a i) → elabStmt S spot st = .ok u →
    (∀ sel ρ ν, later M' u sel ρ ν = laterText M st sel ρ ν) ∧
      ∀ y p, (∃ w ∈ allWrites u, Hits false y p w) ↔ Schedules st y p := by
  induction st with
  | skip | dead => intro u _ _ h; cases h; exact ⟨fun _ _ _ => rfl, by simp [allWrites, Schedules]⟩
  | eval e => intro u _ _ h; cases h; exact ⟨fun _ _ _ => rfl, by simp [allWrites, Schedules]⟩
  | assign b a =>
    intro u hs hv h
    simp only [elabStmt] at h
    cases he : elabAsg S spot a with
    | error e => rw [he] at h; cases h
    | ok x =>
      rw [he] at h
      cases h
      obtain ⟨h1, h2, h3⟩ := asg_seen hc hauto hs.1 hs.2 (hv a (by simp [asgsOf])) he
      cases b with
      | true =>
        refine ⟨fun sel ρ ν => rfl, fun y p => ⟨?_, fun hf => ?_⟩⟩
        · rintro ⟨w, hw, hh⟩
          have : w.blocking = true := by
            cases x <;> simp only [allWrites, asgWrites, List.mem_map, List.mem_flatMap] at hw
            · obtain ⟨_, _, rfl⟩ := hw; rfl
            · obtain ⟨_, _, _, _, rfl⟩ := hw; rfl
          rw [hh.1] at this
          cases this
        · cases hf.1
      | false =>
        refine ⟨fun sel ρ ν => ?_, fun y p => ?_⟩
        · simp only [later, laterText, Bool.false_eq_true, if_false]
          rw [store_kind]
          funext y p
          have hst := congrFun (congrFun (h1 ρ) y) p
          have h3' := (writes_kind true).symm.trans (h3 y p)
          cases hl : lastBit a.lhs y p 0 a.lhs.width with
          | none =>
            rw [(store_over M' ρ y p _ ρ ν).2 fun hin => by
              obtain ⟨k, k1, k2⟩ := h3'.1 hin
              exact lastBit_none hl k (Nat.zero_le _) k1 k2]
            simp only [putInto, hl]
          | some k =>
            rw [(store_over M' ρ y p _ ρ ν).1 (h3'.2 ⟨k, (lastBit_some hl).2⟩), hst]
            simp only [putBits, putInto, hl]
        · simp only [allWrites, Schedules, true_and]
          rw [writes_kind false, writes_bits false, ← writes_kind true]
          exact h3 y p
  | cond k loc es t ih =>
    intro u hs hv h
    simp only [elabStmt] at h
    cases he : elabStmt S spot t with
    | error e => rw [he] at h; cases h
    | ok v =>
      rw [he] at h
      cases h
      obtain ⟨h1, h3⟩ := ih hs.2 hv he
      refine ⟨fun sel ρ ν => ?_, fun y p => ?_⟩
      · simp only [later, run, laterText, enter, hpick]
        exact h1 _ ρ ν
      · simp only [allWrites, List.nil_append]
        exact h3 y p
  | seq s t ih1 ih2 =>
    intro u hs hv h
    simp only [elabStmt] at h
    cases he : elabStmt S spot s with
    | error e => rw [he] at h; cases h
    | ok s' =>
      cases he' : elabStmt S spot t with
      | error e => rw [he, he'] at h; cases h
      | ok t' =>
        rw [he, he'] at h
        cases h
        obtain ⟨h1, h3⟩ := ih1 hs.1 (fun a ha => hv a (by simp [asgsOf, ha])) he
        obtain ⟨k1, k3⟩ := ih2 hs.2 (fun a ha => hv a (by simp [asgsOf, ha])) he'
        have hrun := (stmt_seen hc hauto hpick hs.1 (fun a ha => hv a (by simp [asgsOf, ha])) he).1
        refine ⟨fun sel ρ ν => ?_, fun y p => ?_⟩
        · simp only [later, laterText, enter_same (elab_not_branch he), h1, k1, hrun]
        · simp only [allWrites, List.mem_append, Schedules, ← h3, ← k3]
          grind
  | choose i s t ih1 ih2 =>
    intro u hs hv h
    simp only [elabStmt] at h
    cases he : elabStmt S spot s with
    | error e => rw [he] at h; cases h
    | ok s' =>
      cases he' : elabStmt S spot t with
      | error e => rw [he, he'] at h; cases h
      | ok t' =>
        rw [he, he'] at h
        cases h
        obtain ⟨h1, h3⟩ := ih1 hs.1 (fun a ha => hv a (by simp [asgsOf, ha])) he
        obtain ⟨k1, k3⟩ := ih2 hs.2 (fun a ha => hv a (by simp [asgsOf, ha])) he'
        refine ⟨fun sel ρ ν => ?_, fun y p => ?_⟩
        · simp only [later, laterText, h1, k1]
        · simp only [allWrites, List.mem_append, Schedules, ← h3, ← k3]
          grind

/-- A write of a statement has the node of an assignment. -/
theorem write_node {u : Stmt} : ∀ {w : Wr}, w ∈ allWrites u → .assignment w.loc ∈ stmtNodes u := by
  induction u with
  | skip | reads | branch | dead => intro w h; cases h
  | assign loc b a =>
    intro w h
    cases a <;> simp only [allWrites, asgWrites, List.mem_map, List.mem_flatMap] at h
    · obtain ⟨_, _, rfl⟩ := h; simp [stmtNodes, asgNodes]
    · obtain ⟨g, hg, _, _, rfl⟩ := h
      simp only [stmtNodes, asgNodes, List.mem_flatMap]
      exact ⟨g, hg, by simp⟩
  | seq s t ih1 ih2 | choose i s t ih1 ih2 =>
    intro w h
    simp only [allWrites, List.mem_append] at h
    simp only [stmtNodes, List.mem_append]
    exact h.imp ih1 ih2

/-- A block that writes is seen as the same block only once. -/
theorem seen_once {S : SynEnv} {text : Deferred → SDeferred} {bs : List Deferred}
    (hm : (bs.flatMap fun b => marksOf (SDeferred.stmt (text b))).Nodup)
    (hel : ∀ b ∈ bs, elabBlock S spot (text b) = .ok (seen S spot text b)) {b b' : Deferred} (hb : b ∈ bs) (hb' : b' ∈ bs)
    (hw : ∃ w, w ∈ allWrites (seen S spot text b).stmt) (h : seen S spot text b' = seen S spot text b) : b' = b := by
  obtain ⟨w, hw⟩ := hw
  have h1 := (stmt_once (elabBlock_stmt (hel b hb)) _ w.loc rfl).1 (write_node hw)
  have h2 := (stmt_once (elabBlock_stmt (hel b' hb')) _ w.loc rfl).1 (write_node (h ▸ hw))
  obtain ⟨m, m1, j, m2⟩ := h1
  obtain ⟨m', m1', j', m2'⟩ := h2
  obtain rfl := (spot_inj (m2.symm.trans m2')).1
  clear hel h m2 m2' hw
  induction bs with
  | nil => cases hb
  | cons d ds ih =>
    simp only [List.flatMap_cons] at hm
    obtain ⟨n1, n2, n3⟩ := List.nodup_append.1 hm
    rcases List.mem_cons.1 hb with h1 | h1 <;> rcases List.mem_cons.1 hb' with h2 | h2
    · rw [h1, h2]
    · exact absurd rfl (n3 m (h1 ▸ m1) m (List.mem_flatMap.2 ⟨_, h2, m1'⟩))
    · exact absurd rfl (n3 m (h2 ▸ m1') m (List.mem_flatMap.2 ⟨_, h1, m1⟩))
    · exact ih n2 h1 h2

theorem elabBlock_waits {S : SynEnv} {place : TextLoc → Nat → TextLoc} {b : SDeferred} {b' : Deferred}
    (h : elabBlock S place b = .ok b') (D : Design) (z i : Nat) : Waits D b' z i ↔ TextWaits D b z i := by
  cases b with
  | procedural k body st =>
    simp only [elabBlock] at h
    cases he : elabStmt S place st with
    | error e => rw [he] at h; cases h
    | ok u =>
      rw [he] at h; cases h
      constructor
      · exact fun h => ⟨k, body, st, rfl, h⟩
      · rintro ⟨_, _, _, h, h'⟩; cases h; exact h'
  | continuous a =>
    simp only [elabBlock] at h
    cases he : elabAsg S place a with
    | error e => rw [he] at h; cases h
    | ok u =>
      rw [he] at h; cases h
      constructor
      · rintro ⟨v, hv, _⟩; cases hv
      · rintro ⟨_, _, _, h, _⟩; cases h

end Verif.Proofs

import Verif.Spec.Force
import Verif.Proofs.Texts

/-! `force` statements write nothing. -/
namespace Verif.Proofs
open Verif.Spec Verif.Model

theorem sameWrites_refl (u : Stmt) : SameWrites u u := ⟨rfl, rfl, fun _ => .rfl, fun _ => rfl⟩

theorem runs_seq_iff {s t : Stmt} {tr : List Wr} :
    Runs (.seq s t) tr ↔ ∃ u v, Runs s u ∧ Runs t v ∧ tr = u ++ v := by
  constructor
  · intro h; cases h with | seq h1 h2 => exact ⟨_, _, h1, h2, rfl⟩
  · rintro ⟨u, v, h1, h2, rfl⟩; exact .seq h1 h2

theorem runs_choose_iff {f : Bool} {s t : Stmt} {tr : List Wr} :
    Runs (.choose f s t) tr ↔ Runs s tr ∨ Runs t tr := by
  constructor
  · intro h
    cases h with
    | first h => exact .inl h
    | second h => exact .inr h
  · rintro (h | h)
    · exact .first h
    · exact .second h

theorem sameWrites_seq {s t u v : Stmt} (h : SameWrites s u) (k : SameWrites t v) :
    SameWrites (.seq s t) (.seq u v) := by
  refine ⟨by simp only [Spec.live, h.live, k.live], by simp only [allWrites, h.all, k.all], fun tr => ?_,
    fun r => by simp only [nbaWrites, h.nba, h.live, k.nba]⟩
  simp only [runs_seq_iff, h.runs, k.runs]

theorem sameWrites_choose {f : Bool} {s t u v : Stmt} (h : SameWrites s u) (k : SameWrites t v) :
    SameWrites (.choose f s t) (.choose f u v) := by
  refine ⟨by simp only [Spec.live, h.live, k.live], by simp only [allWrites, h.all, k.all], fun tr => ?_,
    fun r => by simp only [nbaWrites, h.nba, k.nba]⟩
  simp only [runs_choose_iff, h.runs, k.runs]

/-- A statement that writes nothing and lets every path through counts as none. -/
theorem sameWrites_assign {loc : TextLoc} {b : Bool} {x : Asg} (h : asgWrites loc b x = []) :
    SameWrites (.assign loc b x) .skip := by
  refine ⟨rfl, h, fun tr => ?_, fun r => ?_⟩
  · constructor
    · intro k; cases k; rw [h]; exact .skip
    · intro k; cases k; rw [← h]; exact .assign ..
  · cases b with
    | true => rfl
    | false =>
      cases x with
      | legacy ns => cases r <;> simp [nbaWrites, h]
      | aligned gs => simpa only [nbaWrites] using h

theorem elabSegs_force {S : SynEnv} {place : TextLoc → Nat → TextLoc} {a : SAsg} (hf : a.force = true) :
    ∀ {segs : List Seg} {i : Nat} {gs : List DSeg}, elabSegs S place a i segs = .ok gs → ∀ g ∈ gs, g.lhs = []
  | [], i, gs, h => by simp only [elabSegs, Except.ok.injEq] at h; subst h; simp
  | seg :: segs, i, gs, h => by
    simp only [elabSegs, hf, if_true] at h
    split at h
    · cases h
    · split at h
      · cases h
      · rename_i gs' h'
        simp only [Except.ok.injEq] at h
        subst h
        intro g hg
        rcases List.mem_cons.1 hg with rfl | hg
        · rfl
        · exact elabSegs_force hf h' g hg

/-- A `force` writes nothing, whichever way it is handled. -/
theorem elabAsg_force {S : SynEnv} {place : TextLoc → Nat → TextLoc} {a : SAsg} (hf : a.force = true) {x : Asg}
    (h : elabAsg S place a = .ok x) (loc : TextLoc) (b : Bool) : asgWrites loc b x = [] := by
  unfold elabAsg at h
  split at h
  · simp only [Except.ok.injEq] at h
    subst h
    simp only [asgWrites, targets, List.map_eq_nil_iff, List.filter_eq_nil_iff, hf, Bool.not_true]
    intro n hn
    have : n.write = false := by
      rcases List.mem_append.1 hn with hn | hn
      · exact notes_read _ n hn
      · split at hn
        · cases hn
        · exact notes_read _ n hn
    simp [this]
  · cases h; rfl
  · cases h
  · split at h
    · cases h
    · rename_i gs hg
      cases h
      simp only [asgWrites, List.flatMap_eq_nil_iff, List.map_eq_nil_iff]
      exact elabSegs_force hf hg

/-- What the analysis sees of a block and of the block without `force` statements makes the same writes. -/
theorem unforced_writes {S : SynEnv} {place : TextLoc → Nat → TextLoc} : ∀ {st : SStmt} {u : Stmt},
    elabStmt S place st = .ok u → ∃ v, elabStmt S place (unforced st) = .ok v ∧ SameWrites u v
  | .skip, u, h => ⟨u, h, sameWrites_refl u⟩
  | .eval _, u, h => ⟨u, h, sameWrites_refl u⟩
  | .dead, u, h => ⟨u, h, sameWrites_refl u⟩
  | .assign b a, u, h => by
    cases hf : a.force with
    | false => exact ⟨u, by simpa only [unforced, hf, Bool.false_eq_true, if_false] using h, sameWrites_refl u⟩
    | true =>
      refine ⟨.skip, by simp only [unforced, hf, if_true, elabStmt], ?_⟩
      simp only [elabStmt] at h
      split at h
      · cases h
      · rename_i x hx
        cases h
        exact sameWrites_assign (elabAsg_force hf hx _ _)
  | .cond k loc es t, u, h => by
    simp only [elabStmt] at h
    split at h
    · cases h
    · rename_i w hw
      cases h
      obtain ⟨v, h1, h2⟩ := unforced_writes hw
      exact ⟨_, by simp only [unforced, elabStmt, h1], sameWrites_seq (sameWrites_refl _) (sameWrites_seq (sameWrites_refl _) h2)⟩
  | .seq s t, u, h => by
    simp only [elabStmt] at h
    split at h
    · cases h
    · rename_i w hw
      split at h
      · cases h
      · rename_i x hx
        cases h
        obtain ⟨v, h1, h2⟩ := unforced_writes hw
        obtain ⟨v', h3, h4⟩ := unforced_writes hx
        exact ⟨_, by simp only [unforced, elabStmt, h1, h3], sameWrites_seq h2 h4⟩
  | .choose f s t, u, h => by
    simp only [elabStmt] at h
    split at h
    · cases h
    · rename_i w hw
      split at h
      · cases h
      · rename_i x hx
        cases h
        obtain ⟨v, h1, h2⟩ := unforced_writes hw
        obtain ⟨v', h3, h4⟩ := unforced_writes hx
        exact ⟨_, by simp only [unforced, elabStmt, h1, h3], sameWrites_choose h2 h4⟩

end Verif.Proofs

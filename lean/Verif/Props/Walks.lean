import Verif.Proofs.Walks
import Verif.Props.Force

/-! C110: the options for bits change no drivers. -/
namespace Verif.Props
open Verif.Model Verif.Spec Verif.Proofs

/-- C110 (partial): a block gets the same drivers for every bit whether bits are resolved or not, and whichever cuts are
propagated: `S` and `S'` are arbitrary settings. For texts of `force` statements and assignments with static targets and sides of
the same width, without unreachable parts, where the ranges written under either setting have at most one boundary strictly
inside each of them. Missing: other ranges; unreachable parts (`bits_option_dead`), automatic variables
(`bits_option_auto`) and selects with variable index in targets (`bits_option_index`), where the code contradicts the
claim. -/
theorem bits_option_drivers_partial {c : DfaCtx} {net : NetGraph} (h : Ready c net) {S S' : SynEnv} (hc : CutsOk S.cuts)
    (hc' : CutsOk S'.cuts) (ha : ∀ x, S.auto x = false) (ha' : ∀ x, S'.auto x = false) {st : SStmt} (ht : OrdText S st)
    (ht' : OrdText S' st) {u v : Stmt} (hu : elabStmt S atLoc st = .ok u) (hv : elabStmt S' atLoc st = .ok v)
    (hp : Plain (allWrites u)) (hp' : Plain (allWrites v)) :
    ∃ s t, ({ net := net } : Dfa).runBlock c u = .ok s ∧ ({ net := net } : Dfa).runBlock c v = .ok t ∧
      (∀ sym p d, Drives s.trk s.cur.drv sym p d → ∃ loc, IsAssign s.net d loc) ∧
      (∀ sym p d, Drives t.trk t.cur.drv sym p d → ∃ loc, IsAssign t.net d loc) ∧
      ∀ sym p loc, (∃ d, Drives s.trk s.cur.drv sym p d ∧ IsAssign s.net d loc) ↔
        ∃ d, Drives t.trk t.cur.drv sym p d ∧ IsAssign t.net d loc := by
  have he := tidy_ends hc hc' ha ha' ht ht' hu hv
  obtain ⟨s, a1, a2, a3⟩ := block_drivers_partial h hp he.live.1
  obtain ⟨t, b1, b2, b3⟩ := block_drivers_partial h hp' he.live.2
  refine ⟨s, t, a1, b1, a2, b2, fun sym p loc => ?_⟩
  have hn : ∀ ws : List Wr, (∀ w ∈ ws, ¬ Hits false sym p w) ↔ ∀ k, ¬ LastAt false ws sym p k := fun ws =>
    ⟨fun h k hk => by obtain ⟨w, hw, hh⟩ := lastAt_hits hk; exact h w hw hh,
      fun h w hw hh => by obtain ⟨k, hk⟩ := lastAt_of_hit ⟨w, hw, hh⟩; exact h k hk⟩
  have hr : (∃ tr, Runs u tr ∧ LastAt true tr sym p loc) ↔ ∃ tr, Runs v tr ∧ LastAt true tr sym p loc := by
    constructor
    · rintro ⟨tr, r1, r2⟩
      obtain ⟨tr', q1, q2⟩ := he.there tr r1
      exact ⟨tr', q1, (q2 _ _ _ _).1 r2⟩
    · rintro ⟨tr, r1, r2⟩
      obtain ⟨tr', q1, q2⟩ := he.back tr r1
      exact ⟨tr', q1, (q2 _ _ _ _).1 r2⟩
  rw [a3, b3, hn, hn, hr]
  simp only [he.nba false sym p]

/-- Bits of signal `y` from `lo` on. -/
def woBits (y lo w : Nat) : SExpr := .lsp w ⟨some y, lo, w - 1⟩ []

/-- `{a, b} = {c, d}; force a = c; if (e) a <= d;`, four bits each, with signals `a` = 0 to `e` = 4. -/
def woText : SStmt :=
  .seq (.assign true { loc := ln 1, origin := ln 1, lhs := .concat 8 [woBits 0 0 4, woBits 1 0 4], rhs := .concat 8 [woBits 2 0 4, woBits 3 0 4] })
    (.seq (.assign true { loc := ln 4, origin := ln 4, force := true, lhs := woBits 0 0 4, rhs := woBits 2 0 4 })
      (.cond false (ln 2) [woBits 4 0 4] (.choose true
        (.assign false { loc := ln 3, origin := ln 3, lhs := woBits 0 0 4, rhs := woBits 3 0 4 }) .skip)))

theorem wo_tidy (bits : Bool) : OrdText (fcEnv bits) woText := by
  refine ⟨.inr ⟨rfl, rfl, ?_, ?_, rfl, ?_, ?_, fun _ _ => ?_⟩, .inl rfl, .inr ⟨rfl, rfl, ?_, ?_, rfl, ?_, ?_, fun _ _ => ?_⟩,
    trivial⟩ <;>
    simp [woBits, WT, WTs, Lvalue, LvalueOps, Static, StaticOps, SExpr.width, fcEnv, pathsList]

/-- The hypotheses of C110 hold for it with and without resolving bits. -/
example (bits : Bool) : CutsOk (fcEnv bits).cuts ∧ (∀ x, (fcEnv bits).auto x = false) ∧ OrdText (fcEnv bits) woText ∧
    elabStmt (fcEnv bits) atLoc woText = .ok (fcSeen bits woText) ∧ Plain (allWrites (fcSeen bits woText)) ∧
    linesAt (fcEnd bits woText) 0 3 = [3] ∧ linesAt (fcEnd bits woText) 1 3 = [1] := by
  have hw : ∀ w ∈ allWrites (fcSeen bits woText), w.bounds = ⟨0, 3⟩ := by cases bits <;> decide +kernel
  refine ⟨fun _ _ h => by simp [fcEnv] at h, fun _ => rfl, wo_tidy bits, by cases bits <;> rfl,
    plain_of_two (lo := 0) (mid := 1) (hi := 3) (by decide) (by decide)
      (fun w hm => .inr (.inr (hw w hm))) (by decide) (by decide),
    by cases bits <;> decide +kernel, by cases bits <;> decide +kernel⟩

/-- `a[i] = b` with `a` = 0, `i` = 1 and `b` = 2. -/
def woIndex : SStmt :=
  .assign true { loc := ln 1, origin := ln 1, lhs := .lsp 1 ⟨some 0, 0, 7⟩ [woBits 1 0 3], rhs := woBits 2 0 1 }

/-- C110 is false for a select with variable index: `a[i] = b` drives all bits of `a` if bits are not resolved, and only
bit 0 if they are. -/
theorem bits_option_index : linesAt (fcEnd false woIndex) 0 7 = [1] ∧ linesAt (fcEnd true woIndex) 0 7 = [] ∧
    linesAt (fcEnd true woIndex) 0 0 = [1] := by
  decide +kernel

/-- C110 is false for unreachable parts: a non-blocking assignment in one is recorded if bits are resolved. -/
theorem bits_option_dead :
    linesAt (fcEnd false (.choose true .skip (.seq .dead (.assign false
      { loc := ln 1, origin := ln 1, lhs := woBits 0 0 4, rhs := woBits 1 0 4 })))) 0 3 = [] ∧
    linesAt (fcEnd true (.choose true .skip (.seq .dead (.assign false
      { loc := ln 1, origin := ln 1, lhs := woBits 0 0 4, rhs := woBits 1 0 4 })))) 0 3 = [1] := by
  decide +kernel

/-- What the analysis sees of `a = b` if `a` is an automatic variable. -/
def woAuto (bits : Bool) : Stmt :=
  (elabStmt { fcEnv bits with auto := fun x => x == 0 } atLoc (.assign true
    { loc := ln 1, origin := ln 1, lhs := woBits 0 0 4, rhs := woBits 1 0 4 })).toOption.getD .dead

/-- C110 is false for automatic variables: they get a driver if bits are resolved, and none otherwise. -/
theorem bits_option_auto :
    linesAt ((({ net := {} } : Dfa).runBlock flowCtx (woAuto false)).toOption.getD { net := {} }) 0 3 = [] ∧
    linesAt ((({ net := {} } : Dfa).runBlock flowCtx (woAuto true)).toOption.getD { net := {} }) 0 3 = [1] := by
  decide +kernel

end Verif.Props

import Verif.Proofs.Automatic
import Verif.Props.Walks

/-! C111: automatic variables are skipped. -/
namespace Verif.Props
open Verif.Model Verif.Spec Verif.Proofs

/-- C111 (partial): a block is analysed, from any state, exactly as if it did not mention automatic variables. Missing:
parts of assignments resolved bit by bit that are automatic variables by themselves, where the code contradicts the claim
(`automatic_with_bits`). -/
theorem automatic_skipped_partial (c : DfaCtx) {st : Stmt} (h : AutoInside st) (s : Dfa) :
    s.exec c st = s.exec c (lastingStmt st) ∧ s.runBlock c st = s.runBlock c (lastingStmt st) := by
  refine ⟨(exec_lasting c st h s).symm, ?_⟩
  simp only [Dfa.runBlock, exec_lasting c st h s]

/-- C111 for texts: if bits are not resolved, this is so for every text. -/
theorem automatic_text (c : DfaCtx) {S : SynEnv} (hb : S.T.opts.resolveBits = false) {place : TextLoc → Nat → TextLoc}
    {st : SStmt} {u : Stmt} (he : elabStmt S place st = .ok u) (s : Dfa) :
    s.runBlock c u = s.runBlock c (lastingStmt u) := by
  refine (automatic_skipped_partial c ?_ s).2
  clear s
  induction st generalizing u with
  | skip => cases he; trivial
  | eval e => cases he; trivial
  | dead => cases he; trivial
  | assign b a =>
    simp only [elabStmt, elabAsg, assignWalk, hb, Bool.not_false, if_true] at he
    cases he
    trivial
  | cond k loc es t ih =>
    simp only [elabStmt] at he
    split at he
    · cases he
    · rename_i v hv
      cases he
      exact ⟨trivial, trivial, ih hv⟩
  | seq a b iha ihb =>
    simp only [elabStmt] at he
    split at he
    · cases he
    · rename_i v hv
      split at he
      · cases he
      · rename_i w hw
        cases he
        exact ⟨iha hv, ihb hw⟩
  | choose i a b iha ihb =>
    simp only [elabStmt] at he
    split at he
    · cases he
    · rename_i v hv
      split at he
      · cases he
      · rename_i w hw
        cases he
        exact ⟨iha hv, ihb hw⟩

/-- `t = a; l = t; b = l` with `a` = 0, `t` = 1, `l` = 2, automatic, and `b` = 3, all of the same width. -/
def avText : SStmt := .seq (fcAsg 1 false 1 0) (.seq (fcAsg 2 false 2 1) (fcAsg 3 false 3 2))

/-- What the analysis sees of it, and the state after it. -/
def avSeen (bits : Bool) : Stmt :=
  (elabStmt { fcEnv bits with auto := fun x => x == 2 } atLoc avText).toOption.getD .dead
def avEnd (st : Stmt) : Dfa := (({ net := {} } : Dfa).runBlock flowCtx st).toOption.getD { net := {} }

/-- Without resolving bits the hypotheses hold for it, and it does mention an automatic variable. -/
example : AutoInside (avSeen false) ∧ lastingStmt (avSeen false) ≠ avSeen false ∧
    (fcEnv false).T.opts.resolveBits = false ∧
    elabStmt { fcEnv false with auto := fun x => x == 2 } atLoc avText = .ok (avSeen false) :=
  ⟨⟨trivial, trivial, trivial⟩, by decide +kernel, rfl, rfl⟩

/-- With bits resolved, the hypothesis holds if the automatic variable is only used inside an expression that is not
split. -/
example : AutoInside (.assign (ln 1) true (.aligned [⟨[⟨0, ⟨0, 3⟩, 0, false⟩],
    [.opaque [⟨2, ⟨0, 3⟩, 0, true⟩, ⟨1, ⟨0, 3⟩, 0, false⟩]], ln 1⟩])) := by
  intro g hg
  simp at hg
  subst hg
  simp

/-- What is lost: the assignment of `t` (node 0) goes on to that of `l` (node 1), which goes nowhere, so `b` does not depend
on `a` in the netlist, as in the test of the repository. -/
theorem automatic_value_lost : nextOf (avEnd (avSeen false)) 0 = [1] ∧ nextOf (avEnd (avSeen false)) 1 = [] ∧
    (avEnd (avSeen false)).net.data 2 = .assignment (ln 3) := by
  decide +kernel

/-- C111 is false if bits are resolved: `l` is followed to the assignment of `b`, which it would not be if the block did not
mention it. -/
theorem automatic_with_bits : nextOf (avEnd (avSeen true)) 1 = [2] ∧ linesAt (avEnd (avSeen true)) 2 7 = [2] ∧
    nextOf (avEnd (lastingStmt (avSeen true))) 1 = [] ∧ linesAt (avEnd (lastingStmt (avSeen true))) 2 7 = [] := by
  decide +kernel

/-- The same with one bit each but 32 bits for `l` (tests/unit/DatatypeTests.cpp:179-193). -/
def avTest : SStmt :=
  .seq (.assign true { loc := ln 1, origin := ln 1, lhs := woBits 1 0 1, rhs := woBits 0 0 1 })
    (.seq (.assign true { loc := ln 2, origin := ln 2, lhs := woBits 2 0 32, rhs := .conv 32 false none (woBits 1 0 1) })
      (.assign true { loc := ln 3, origin := ln 3, lhs := woBits 3 0 1, rhs := .conv 1 false none (woBits 2 0 32) }))

/-- What the analysis makes of it. -/
def avTestEnd (bits : Bool) : Dfa :=
  avEnd ((elabStmt { fcEnv bits with auto := fun x => x == 2 } atLoc avTest).toOption.getD .dead)

/-- The test "Automatic variables are skipped" passes with bits resolved because a narrowing conversion is opaque: nothing
leads to the assignment of `b`, the last node, under either setting. -/
theorem automatic_test : (avTestEnd false).net.data 2 = .assignment (ln 3) ∧ (avTestEnd true).net.data 4 = .assignment (ln 3) ∧
    (List.range 3).flatMap (nextOf (avTestEnd false)) = [1] ∧ (List.range 5).flatMap (nextOf (avTestEnd true)) = [1, 2] := by
  decide +kernel

end Verif.Props

import Verif.Spec.Dataflow
import Verif.Model.Jump

/-! How statements with jumps run. -/
namespace Verif.Spec
open Verif.Model

/-- The writes made by an execution of a statement, and how it ends: `none` at its end, `some k` by a jump that leaves
`k` more scopes around it, besides the next one. -/
inductive JRuns : JStmt → List Wr → Option Nat → Prop
  | plain {s : Stmt} {t : List Wr} : Runs s t → JRuns (.plain s) t none
  | jump (k : Nat) : JRuns (.jump k) [] (some k)
  | seq {a b : JStmt} {t v : List Wr} {o : Option Nat} : JRuns a t none → JRuns b v o → JRuns (.seq a b) (t ++ v) o
  | away {a b : JStmt} {t : List Wr} {k : Nat} : JRuns a t (some k) → JRuns (.seq a b) t (some k)
  | first {f : Bool} {a b : JStmt} {t : List Wr} {o : Option Nat} : JRuns a t o → JRuns (.choose f a b) t o
  | second {f : Bool} {a b : JStmt} {t : List Wr} {o : Option Nat} : JRuns b t o → JRuns (.choose f a b) t o
  | through {a : JStmt} {t : List Wr} : JRuns a t none → JRuns (.scope a) t none
  | here {a : JStmt} {t : List Wr} : JRuns a t (some 0) → JRuns (.scope a) t none
  | out {a : JStmt} {t : List Wr} {k : Nat} : JRuns a t (some (k + 1)) → JRuns (.scope a) t (some k)

/-- How a loop runs that is left at its end or by `break`: an iteration runs to its end or up to a `continue`, and then
the next one follows, or up to a `break`, and then none does. -/
inductive JLoopRuns : List JStmt → List Wr → Prop
  | done : JLoopRuns [] []
  | next {b : JStmt} {bs : List JStmt} {t v : List Wr} : JRuns b t none → JLoopRuns bs v → JLoopRuns (b :: bs) (t ++ v)
  | continue {b : JStmt} {bs : List JStmt} {t v : List Wr} : JRuns b t (some 0) → JLoopRuns bs v →
    JLoopRuns (b :: bs) (t ++ v)
  | break {b : JStmt} {bs : List JStmt} {t : List Wr} : JRuns b t (some 1) → JLoopRuns (b :: bs) t

/-- All writes that occur in the text of a statement, in order. -/
def jumpWrites : JStmt → List Wr
  | .plain s => allWrites s
  | .jump _ => []
  | .seq a b | .choose _ a b => jumpWrites a ++ jumpWrites b
  | .scope a => jumpWrites a

mutual
/-- Whether some path reaches the end of a statement. -/
def jumpEnds : JStmt → Bool
  | .plain s => live s
  | .jump _ => false
  | .seq a b => jumpEnds a && jumpEnds b
  | .choose _ a b => jumpEnds a || jumpEnds b
  | .scope a => jumpEnds a || jumpLeaves 0 a

/-- Whether some path leaves a statement by a jump that leaves `k` more scopes. -/
def jumpLeaves (k : Nat) : JStmt → Bool
  | .plain _ => false
  | .jump j => k == j
  | .seq a b => jumpLeaves k a || (jumpEnds a && jumpLeaves k b)
  | .choose _ a b => jumpLeaves k a || jumpLeaves k b
  | .scope a => jumpLeaves (k + 1) a
end

/-- The non-blocking writes in textual order, except those in unreachable code that are handled by visiting the sides
of the assignment; `r` tells whether the statement is reachable. -/
def jumpNba (r : Bool) : JStmt → List Wr
  | .plain s => nbaWrites r s
  | .jump _ => []
  | .seq a b => jumpNba r a ++ jumpNba (r && jumpEnds a) b
  | .choose _ a b => jumpNba r a ++ jumpNba r b
  | .scope a => jumpNba r a

end Verif.Spec

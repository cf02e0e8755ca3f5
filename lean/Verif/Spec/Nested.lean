import Verif.Model.Nested
import Verif.Spec.Dataflow

/-! What statements with assignments inside expressions write, and how they look with these assignments taken out. -/
namespace Verif.Spec
open Verif.Model

/-- All assignments are handled by visiting their sides. -/
def SideWise : EVis → Prop
  | .done => True
  | .note _ r => SideWise r
  | .asg _ _ b r => SideWise b ∧ SideWise r
  | _ => False

/-- Outside of its inner assignments the expression writes nothing. -/
def OnlyReads : EVis → Prop
  | .done => True
  | .note x r => x.write = false ∧ OnlyReads r
  | .src _ r | .asg _ _ _ r | .aligned _ _ r | .seg _ _ _ r => OnlyReads r

/-- In every assignment the written signals come before the inner assignments: no left-hand side has an assignment
in it. -/
def PlainLhs : EVis → Prop
  | .done => True
  | .note _ r | .src _ r => PlainLhs r
  | .asg _ _ b r | .seg _ _ b r => PlainLhs b ∧ OnlyReads r ∧ PlainLhs r
  | .aligned _ b r => PlainLhs b ∧ OnlyReads r ∧ PlainLhs r ∧ OnlyReads b

/-- The writes of an expression that is part of the assignment at `loc`, each with the assignment it belongs to, an
outer assignment before the ones inside it. -/
def ownWrites (loc : TextLoc) (b : Bool) : EVis → List Wr
  | .done => []
  | .note x r =>
    (if x.write && !x.ref.auto then [⟨x.ref.sym, x.ref.bounds, loc, b⟩] else []) ++ ownWrites loc b r
  | .asg l k body r => ownWrites l k body ++ ownWrites loc b r
  | .src _ r => ownWrites loc b r
  | .aligned k segs r => ownWrites loc k segs ++ ownWrites loc b r
  | .seg l lhs body r => lhs.map (fun x => ⟨x.sym, x.bounds, l, b⟩) ++ ownWrites l b body ++ ownWrites loc b r

/-- Uses appended to the last of several assignments. -/
def lengthen : List (TextLoc × Bool × List Note) → List Note → List (TextLoc × Bool × List Note)
  | [], _ => []
  | [(l, b, ns)], more => [(l, b, ns ++ more)]
  | g :: h :: gs, more => g :: lengthen (h :: gs) more

/-- The assignments taken out of an expression, the outer before the inner ones: the uses before the first assignment,
and the assignments, where every use counts as part of the assignment that was met last. -/
def takenOut : EVis → List Note × List (TextLoc × Bool × List Note)
  | .done => ([], [])
  | .note x r => (x :: (takenOut r).1, (takenOut r).2)
  | .asg l b body r =>
    ([], lengthen ((l, b, (takenOut body).1) :: (takenOut body).2) (takenOut r).1 ++ (takenOut r).2)
  | _ => ([], [])

/-- Assignments one after the other. -/
def inTurn : List (TextLoc × Bool × List Note) → Stmt
  | [] => .skip
  | (l, b, ns) :: gs => .seq (.assign l b (.legacy ns)) (inTurn gs)

/-- The statement with the assignments taken out of its expressions. -/
def unnest : NStmt → Stmt
  | .plain s => s
  | .expr v => .seq (.reads ((takenOut v).1.map (·.ref))) (inTurn (takenOut v).2)
  | .seq s t => .seq (unnest s) (unnest t)
  | .choose f s t => .choose f (unnest s) (unnest t)

/-- Expressions write in assignments only, and the assignments are handled by visiting their sides. -/
def NFits : NStmt → Prop
  | .plain _ => True
  | .expr v => SideWise v ∧ OnlyReads v
  | .seq s t | .choose _ s t => NFits s ∧ NFits t

/-- No left-hand side has an assignment in it. -/
def NPlainLhs : NStmt → Prop
  | .plain _ => True
  | .expr v => PlainLhs v
  | .seq s t | .choose _ s t => NPlainLhs s ∧ NPlainLhs t

/-- The writes of an expression outside of an assignment: those of the assignments in it. -/
def exprWrites (v : EVis) : List Wr := ownWrites {} true v

/-- All assignments of the expression are blocking. -/
def AllBlk : EVis → Prop
  | .done => True
  | .note _ r | .src _ r => AllBlk r
  | .asg _ k b r | .aligned k b r => k = true ∧ AllBlk b ∧ AllBlk r
  | .seg _ _ b r => AllBlk b ∧ AllBlk r

/-- The assignments with assignments inside them, and these, are blocking, and expressions write in assignments only. -/
def NBlk : NStmt → Prop
  | .plain _ => True
  | .expr v => AllBlk v ∧ OnlyReads v
  | .seq s t | .choose _ s t => NBlk s ∧ NBlk t

/-- The writes on one control path, every one with the assignment it belongs to. -/
inductive NRuns : NStmt → List Wr → Prop
  | plain {s : Stmt} {tr : List Wr} : Runs s tr → NRuns (.plain s) tr
  | expr (v : EVis) : NRuns (.expr v) (exprWrites v)
  | seq {s t : NStmt} {u v : List Wr} : NRuns s u → NRuns t v → NRuns (.seq s t) (u ++ v)
  | first {f : Bool} {s t : NStmt} {u : List Wr} : NRuns s u → NRuns (.choose f s t) u
  | second {f : Bool} {s t : NStmt} {u : List Wr} : NRuns t u → NRuns (.choose f s t) u

/-- All writes in the text, in order. -/
def nWrites : NStmt → List Wr
  | .plain s => allWrites s
  | .expr v => exprWrites v
  | .seq s t | .choose _ s t => nWrites s ++ nWrites t

/-- Whether some control path leads through the statement. -/
def nLive : NStmt → Bool
  | .plain s => live s
  | .expr _ => true
  | .seq s t => nLive s && nLive t
  | .choose _ s t => nLive s || nLive t

/-- The non-blocking writes in textual order, except those in unreachable code that are handled by visiting the sides of
the assignment (as `nbaWrites`). -/
def nNba (r : Bool) : NStmt → List Wr
  | .plain s => nbaWrites r s
  | .expr v => if r then (exprWrites v).filter (!·.blocking) else []
  | .seq s t => nNba r s ++ nNba (r && nLive s) t
  | .choose _ s t => nNba r s ++ nNba r t

/-- The kind of the assignment of an expression that was begun last; `blk` if there is none. -/
def lastBegun (blk : Bool) : EVis → Bool
  | .done => blk
  | .note _ r | .src _ r => lastBegun blk r
  | .asg _ b body r | .aligned b body r => lastBegun (lastBegun b body) r
  | .seg _ _ body r => lastBegun (lastBegun blk body) r

/-- The sources of a segment as visited. -/
def ofSrcs : List RSrc → EVis
  | [] => .done
  | x :: xs => .src x (ofSrcs xs)

/-- The uses as visited. -/
def ofNotes : List Note → EVis
  | [] => .done
  | x :: xs => .note x (ofNotes xs)

/-- Uses visited before an expression. -/
def onto : List Note → EVis → EVis
  | [], v => v
  | x :: xs, v => .note x (onto xs v)

/-- Segments without inner assignments. -/
def ofSegs : List DSeg → EVis
  | [] => .done
  | g :: gs => .seg g.loc g.lhs (ofSrcs g.rhs) (ofSegs gs)

/-- An assignment without inner assignments. -/
def ofAsg (loc : TextLoc) (b : Bool) : Asg → EVis
  | .legacy notes => .asg loc b (ofNotes notes) .done
  | .aligned segs => .aligned b (ofSegs segs) .done

end Verif.Spec

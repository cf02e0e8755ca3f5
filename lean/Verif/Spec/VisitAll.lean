import Verif.Model.VisitAll

/-!
Which elements of an AST lie below which, without visitors.
-/
namespace Verif.Spec
open Verif.Model

/-- The parts of an element. -/
def partsOf : Ast → List Ast
  | .mk _ _ ps => ps

/-- Its number. -/
def astId : Ast → Nat
  | .mk id _ _ => id

/-- Its kind. -/
def astKind : Ast → AstKind
  | .mk _ k _ => k

/-- `c` is in `a`, itself or below; all elements from `a` down to and excluding `c` satisfy `P`. -/
inductive Through (P : AstKind → Prop) : Ast → Ast → Prop where
  | here (a : Ast) : Through P a a
  | part {a b c : Ast} : P (astKind a) → b ∈ partsOf a → Through P b c → Through P a c

/-- `c` is in `a`, itself or below. -/
def InAst (a c : Ast) : Prop := Through (fun _ => True) a c

/-- Elements below which a visit before freezing is to go: not values, not instances that are not part of the
design, not declarations of static variables. -/
def Opened (k : AstKind) : Prop :=
  k ≠ .value ∧ (∀ b, k ≠ .inst true b) ∧ k ≠ .decl true

/-- Elements below which blocks become part of the netlist. -/
def Netlisted (k : AstKind) : Prop :=
  k = .other ∨ k = .inst false false ∨ k = .gen false

/-- Statements and expressions whose parts are executed: not declarations of static variables. -/
def Executes (k : AstKind) : Prop :=
  k = .other ∨ k = .block ∨ k = .decl false

/-- Statements and expressions. -/
def Code (k : AstKind) : Prop :=
  Executes k ∨ k = .decl true

mutual
/-- All numbers in an AST, each as often as it occurs, that of an element before those of its parts. -/
def astIds : Ast → List Nat
  | .mk id _ ps => id :: astIdsIn ps

/-- All numbers in a list of parts. -/
def astIdsIn : List Ast → List Nat
  | [] => []
  | a :: as => astIds a ++ astIdsIn as
end

end Verif.Spec

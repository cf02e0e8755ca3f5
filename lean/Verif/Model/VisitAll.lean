import Verif.Model.Wildcard

/-!
The visitor that is run over the AST before the compilation is frozen (include/netlist/VisitAll.hpp), and what the
later phases look at: the traversal that defers blocks (source/NetlistBuilder.cpp:478-562) and the analysis of a
deferred block (source/NetlistBuilder.cpp:538-556). slang's visitors are modelled from their documented behaviour:
an element without a `handle` is entered, and its parts are visited in order.
-/
namespace Verif.Model

/-- What the visitors distinguish (include/netlist/VisitAll.hpp:21, 26, 37, source/NetlistBuilder.cpp:425-430, 478,
524-531, 558): values (variables, nets, parameters), instances, generate blocks, blocks that are deferred (procedural
blocks and continuous assignments), declaration statements, and everything else (scopes, statements,
expressions). An instance is marked as uninstantiated, and as matched by the patterns for black boxes
(source/NetlistBuilder.cpp:457-476). -/
inductive AstKind where
  | value
  | inst (uninst boxed : Bool)
  | gen (uninst : Bool)
  | block
  | decl (isStatic : Bool)
  | other
deriving DecidableEq, Repr

/-- An element of the AST: a number that identifies it, its kind, and its parts. The parts of a value are its
initializer and the dimensions of its type, those of an instance the members of its body and its port connections,
that of a declaration statement the initializer of its symbol (include/netlist/VisitAll.hpp:38-41). Other attributes are
left out. -/
inductive Ast where
  | mk (id : Nat) (kind : AstKind) (parts : List Ast)

/-- The visitor's `count` together with the elements it was called on, in order; the code keeps only the count
(include/netlist/VisitAll.hpp:19). -/
structure Visitor where
  count : Nat := 0
  seen : List Nat := []
deriving DecidableEq, Repr

mutual
/-- The `handle` overloads (include/netlist/VisitAll.hpp:21-43). -/
def Ast.visitAll : Ast → Visitor → Visitor
  | .mk id .value _, v => { count := v.count + 1, seen := v.seen ++ [id] }
  | .mk id (.inst uninst _) parts, v =>
    let v := { v with seen := v.seen ++ [id] }
    if !uninst then Ast.visitParts parts v else v
  | .mk id (.decl isStatic) parts, v =>
    let v := { v with seen := v.seen ++ [id] }
    if !isStatic then Ast.visitParts parts v else v
  | .mk id (.gen _) parts, v => Ast.visitParts parts { v with seen := v.seen ++ [id] }
  | .mk id .block parts, v => Ast.visitParts parts { v with seen := v.seen ++ [id] }
  | .mk id .other parts, v => Ast.visitParts parts { v with seen := v.seen ++ [id] }

/-- Visiting the parts of an element in order (include/netlist/VisitAll.hpp:28, 40; otherwise slang's
`visitDefault`). -/
def Ast.visitParts : List Ast → Visitor → Visitor
  | [], v => v
  | a :: as, v => Ast.visitParts as (a.visitAll v)
end

mutual
/-- The blocks that the first phase defers, in order (source/NetlistBuilder.cpp:478-536, 558-562). Variables are not
entered (430-455), nor are uninstantiated instances and generate blocks, nor the bodies of black boxes; their port
connections hold no blocks. -/
def Ast.deferred : Ast → List Ast
  | .mk _ .value _ => []
  | .mk _ (.inst uninst boxed) parts => if uninst || boxed then [] else Ast.deferredIn parts
  | .mk _ (.gen uninst) parts => if uninst then [] else Ast.deferredIn parts
  | .mk id .block parts => [.mk id .block parts]
  | .mk _ (.decl _) _ => []
  | .mk _ .other parts => Ast.deferredIn parts

/-- The blocks deferred in a list of members (source/NetlistBuilder.cpp:508, 560). -/
def Ast.deferredIn : List Ast → List Ast
  | [] => []
  | a :: as => a.deferred ++ Ast.deferredIn as
end

mutual
/-- The elements the analysis of a block visits (source/NetlistBuilder.cpp:543, 553): statements and expressions with
their parts; of declarations the initializer unless the variable is static, as the comment in
include/netlist/VisitAll.hpp:32-36 says. Values are looked up and not visited. That a visit may skip parts (dead
branches) is left out. -/
def Ast.analysed : Ast → List Nat
  | .mk id (.decl isStatic) parts => id :: (if isStatic then [] else Ast.analysedIn parts)
  | .mk id .other parts => id :: Ast.analysedIn parts
  | .mk id .block parts => id :: Ast.analysedIn parts
  | .mk _ .value _ => []
  | .mk _ (.inst _ _) _ => []
  | .mk _ (.gen _) _ => []

/-- The same for a list of parts (source/NetlistBuilder.cpp:543, 553). -/
def Ast.analysedIn : List Ast → List Nat
  | [] => []
  | a :: as => a.analysed ++ Ast.analysedIn as
end

end Verif.Model

import Verif.Model.Sensitivity

/-!
Following modport connections to interface variables: `resolveInterfaceRef`
(source/NetlistBuilder.cpp:169-234).
-/
namespace Verif.Model

/-- A path that slang's `expandIndirectRefs` delivers for an expression: whether it is empty, its root
symbol, the bounds of its longest static prefix and the expression that is that prefix
(source/NetlistBuilder.cpp:179-191). Symbols and expressions are numbers. -/
structure PathFact where
  empty : Bool := false
  lsp : Option Nat
  root : Option Nat
  bounds : BitRange

/-- The callback for one delivered path (source/NetlistBuilder.cpp:181-216). `again` is the recursive
call. -/
def ifacePath (kind : Nat → SymKind) (again : Nat → Except Fault (List (Nat × BitRange)))
    (p : PathFact) : Except Fault (List (Nat × BitRange)) :=
  match p.empty, p.lsp, p.root with
  | false, some lsp, some sym =>
    match kind sym with
    | .variable => .ok [(sym, p.bounds)]
    | .modportPort => again lsp
    | .other => .ok []
  | _, _, _ => .ok []

/-- The delivered paths in order (source/NetlistBuilder.cpp:179-181). -/
def ifacePaths (kind : Nat → SymKind) (again : Nat → Except Fault (List (Nat × BitRange))) :
    List PathFact → Except Fault (List (Nat × BitRange))
  | [] => .ok []
  | p :: ps =>
    match ifacePath kind again p with
    | .error f => .error f
    | .ok here =>
      match ifacePaths kind again ps with
      | .error f => .error f
      | .ok rest => .ok (here ++ rest)

/-- `_resolveInterfaceRef` (source/NetlistBuilder.cpp:169-217) and `resolveInterfaceRef` (219-234):
the variables in the order in which they are found. `expand` is slang's `expandIndirectRefs`. The first
argument bounds the depth of the recursion; running out of it stands for a stack overflow. The modport
port given to the function is used for debug output only. -/
def resolveIface (kind : Nat → SymKind) (expand : Nat → List PathFact) :
    Nat → Nat → Except Fault (List (Nat × BitRange))
  | 0, _ => .error .budget
  | n + 1, e => ifacePaths kind (resolveIface kind expand n) (expand e)

end Verif.Model

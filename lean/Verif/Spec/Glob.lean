/-!
What a glob pattern means (docs/user-guide.dox, "Glob pattern syntax", and the comment at
include/common/Wildcard.hpp:7-27): a pattern is a sequence of pieces, each piece stands for a set of
strings, and a text matches if it is a concatenation of strings, one from each piece in order.
-/
namespace Verif.Spec

/-- The part of a text that a C function sees: up to the first NUL. -/
def visible : List Char → List Char
  | [] => []
  | c :: cs => if c = '\x00' then [] else c :: visible cs

/-- Pieces of a pattern. `deep lead trail` is a recursive wildcard with an absorbed dot before
and/or after it. -/
inductive Piece where
  | lit (c : Char)
  | one
  | seg
  | deep (lead trail : Bool)
  deriving DecidableEq, Repr

/-- Strings a piece stands for. -/
def Piece.Den : Piece → List Char → Prop
  | .lit c, s => s = [c]
  | .one, s => ∃ c, c ≠ '.' ∧ s = [c]
  | .seg, s => '.' ∉ s
  | .deep false false, _ => True
  | .deep true false, s => s = [] ∨ ∃ t, s = '.' :: t
  | .deep false true, s => s = [] ∨ ∃ t, s = t ++ ['.']
  | .deep true true, s => s = ['.'] ∨ ∃ t, s = '.' :: t ++ ['.']

/-- Splitting a pattern into pieces, longest piece first from the left. -/
def pieces : List Char → List Piece
  | '.' :: '*' :: '*' :: '.' :: r => .deep true true :: pieces r
  | '.' :: '*' :: '*' :: r => .deep true false :: pieces r
  | '.' :: '.' :: '.' :: '.' :: '.' :: r => .deep true true :: pieces r
  | '.' :: '.' :: '.' :: '.' :: r => .deep true false :: pieces r
  | '.' :: '.' :: '.' :: r => .deep false false :: pieces r
  | '*' :: '*' :: '.' :: r => .deep false true :: pieces r
  | '*' :: '*' :: r => .deep false false :: pieces r
  | '*' :: r => .seg :: pieces r
  | '?' :: r => .one :: pieces r
  | c :: r => .lit c :: pieces r
  | [] => []

/-- A text matches a sequence of pieces. -/
def Matches : List Piece → List Char → Prop
  | [], s => s = []
  | p :: ps, s => ∃ a b, s = a ++ b ∧ p.Den a ∧ Matches ps b

/-- `path` is `scope` or lies below it. -/
def InScope (path scope : List Char) : Prop := path = scope ∨ ∃ rest, path = scope ++ '.' :: rest

end Verif.Spec

import Verif.Model.Canonical

/-! Specification vocabulary for C47. -/
namespace Verif.Spec
open Verif.Model

/-- The member at position `i`. -/
def nth : Mems → Nat → Option Item
  | .nil, _ => none
  | .value v _, 0 => some (.value v)
  | .inst b c ms _, 0 => some (.inst b c ms)
  | .scope k ms _, 0 => some (.scope k ms)
  | .other _, 0 => some .other
  | .value _ r, i + 1 => nth r i
  | .inst _ _ _ r, i + 1 => nth r i
  | .scope _ _ r, i + 1 => nth r i
  | .other r, i + 1 => nth r i

/-- `x` in the local scope `ms` stands at the same place as `y` in the canonical scope `cs`: at the
same position, or inside members at the same position, where an instance of the canonical scope
stands for the body that is canonical for it. -/
inductive Opposite (F : Forest) : Mems → Mems → CQuery → Nat → Prop
  | value {ms cs : Mems} {i v w : Nat} : nth ms i = some (.value v) → nth cs i = some (.value w) →
      Opposite F ms cs (.value v) w
  | body {ms cs : Mems} {i b b' : Nat} {c c' : Option Nat} {l l' : Mems} :
      nth ms i = some (.inst b c l) → nth cs i = some (.inst b' c' l') →
      Opposite F ms cs (.body b) (c'.getD b')
  | inside {ms cs : Mems} {i b b' : Nat} {c c' : Option Nat} {l l' : Mems} {x : CQuery} {y : Nat} :
      nth ms i = some (.inst b c l) → nth cs i = some (.inst b' c' l') → c'.getD b' ≠ b →
      Opposite F l (F.members (c'.getD b')) x y → Opposite F ms cs x y
  | scope {ms cs : Mems} {i : Nat} {k : ScopeKind} {l l' : Mems} {x : CQuery} {y : Nat} :
      nth ms i = some (.scope k l) → nth cs i = some (.scope k l') →
      Opposite F l l' x y → Opposite F ms cs x y

/-- The body `x` belongs to: itself, or the one it is declared in. -/
def bodyOf (F : Forest) : CQuery → Option Nat
  | .body b => some b
  | .value v => F.home v

/-- `a` is an enclosing body of `x`, or `x` itself, that was declared a copy of another body `c`. -/
def Anchor (F : Forest) (x : CQuery) (a c : Nat) : Prop :=
  ∃ b, bodyOf F x = some b ∧ a ∈ F.chain b ∧ F.canon a = some c ∧ c ≠ a

/-- `y` is the counterpart of `x`: `x` is a copy of `y`, or inside a copy at the place where `y` is
inside the original. -/
def Counterpart (F : Forest) (x : CQuery) (y : Nat) : Prop :=
  ∃ a c, Anchor F x a c ∧ (x = .body a ∧ y = c ∨ Opposite F (F.members a) (F.members c) x y)

/-- The name of a query without its kind. -/
def CQuery.sym : CQuery → Nat
  | .value v => v
  | .body b => b

/-- The answer the resolver should give: the counterpart if there is one, the symbol itself
otherwise. -/
def Canonical (F : Forest) (x : CQuery) (y : Nat) : Prop :=
  Counterpart F x y ∨ (y = CQuery.sym x ∧ ∀ z, ¬ Counterpart F x z)

/-- All values and bodies below a scope. -/
def below : Mems → List CQuery
  | .nil => []
  | .value v r => .value v :: below r
  | .inst b _ ms r => .body b :: (below ms ++ below r)
  | .scope _ ms r => below ms ++ below r
  | .other r => below r

/-- Values and bodies directly in a body, not inside a nested body. -/
def direct : Mems → List CQuery
  | .nil => []
  | .value v r => .value v :: direct r
  | .inst b _ _ r => .body b :: direct r
  | .scope _ ms r => direct ms ++ direct r
  | .other r => direct r

/-- Every nested instance of the scope carries the members its body has in the design. -/
def Inlined (F : Forest) : Mems → Prop
  | .nil => True
  | .value _ r => Inlined F r
  | .inst b _ ms r => F.members b = ms ∧ Inlined F ms ∧ Inlined F r
  | .scope _ ms r => Inlined F ms ∧ Inlined F r
  | .other r => Inlined F r

/-- The functions of the forest describe one tree: no symbol occurs twice below a body, values and
bodies know the body they are in, and the enclosing bodies are those met going up. -/
structure ForestOk (F : Forest) : Prop where
  nodup : ∀ a, (below (F.members a)).Nodup
  inlined : ∀ a, Inlined F (F.members a)
  home : ∀ a v, .value v ∈ direct (F.members a) → F.home v = some a
  chain : ∀ a b, .body b ∈ direct (F.members a) → F.chain b = b :: F.chain a
  self : ∀ b, ∃ l, F.chain b = b :: l
  up : ∀ b l a r, F.chain b = l ++ a :: r → F.chain a = a :: r

/-- At most one enclosing body of any body was declared a copy of another. The resolver relies on it
(source/CanonicalBodyResolver.hpp:17-18: only the outermost non-canonical instance is marked). -/
def OneAnchor (F : Forest) : Prop :=
  ∀ x a a' c c', Anchor F x a c → Anchor F x a' c' → a = a'

end Verif.Spec

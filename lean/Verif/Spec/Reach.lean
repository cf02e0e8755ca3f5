/-!
Specification vocabulary for reachability, walks and cycles.

Nothing here mentions the traversal code: a relation `R` on nodes is all that is needed.
-/
namespace Verif.Spec

/-- `Reach R a b`: `b` can be reached from `a` in zero or more `R` steps. -/
inductive Reach {α : Type} (R : α → α → Prop) (a : α) : α → Prop
  | refl : Reach R a a
  | tail {b c : α} : Reach R a b → R b c → Reach R a c

/-- `Walk R l`: consecutive elements of the list `l` are related by `R`. -/
def Walk {α : Type} (R : α → α → Prop) : List α → Prop
  | [] => True
  | [_] => True
  | a :: b :: l => R a b ∧ Walk R (b :: l)

/-- `SimplePath R a b l`: `l` is a repetition-free walk from `a` to `b`. -/
structure SimplePath {α : Type} (R : α → α → Prop) (a b : α) (l : List α) : Prop where
  first : l.head? = some a
  last : l.getLast? = some b
  walk : Walk R l
  nodup : l.Nodup

/-- `SimpleCycle R l`: `l` is a non-empty repetition-free list whose consecutive elements are
related and whose last element is related to its first: a simple cycle written without
repeating the start. -/
structure SimpleCycle {α : Type} (R : α → α → Prop) (l : List α) : Prop where
  nonempty : l ≠ []
  walk : Walk R l
  close : ∀ a b, l.head? = some a → l.getLast? = some b → R b a
  nodup : l.Nodup

/-- `OnCycle R v`: `v` can be reached from itself in at least one step. -/
def OnCycle {α : Type} (R : α → α → Prop) (v : α) : Prop :=
  ∃ u, Reach R v u ∧ R u v

end Verif.Spec

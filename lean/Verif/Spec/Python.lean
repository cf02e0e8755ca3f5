import Verif.Model.Python

/-!
Specification of the use of the Python bindings: which objects are alive, which memory a call touches, and
what an iteration gives.
-/
namespace Verif.Spec
open Verif.Model

/-- An object is alive if the program refers to it or a live object keeps it. -/
inductive Alive (s : PySt) : Nat → Prop
  | var {i : Nat} : i ∈ s.vars → Alive s i
  | kept {i j : Nat} : Alive s j → i ∈ s.keeps j → Alive s i

/-- The state is that of a program started with nothing. -/
def PyRan (rx : Str → Str → Bool) (s : PySt) : Prop := ∃ ops, PySt.run rx {} ops = some s

/-- The program holds the object, which is a graph. -/
def HoldsGraph (s : PySt) (g : Nat) : Prop := g ∈ s.vars ∧ ∃ ss b, s.val g = .graph ss b

/-- The program holds the object, which stands for the node `n` of graph object `g`. -/
def HoldsNode (s : PySt) (h g n : Nat) : Prop := h ∈ s.vars ∧ s.val h = .node g n

/-- The program holds the object, which is a path. -/
def HoldsPath (s : PySt) (p : Nat) (ns : List (Nat × Nat)) : Prop := p ∈ s.vars ∧ s.val p = .path ns

/-- The call looks at a node of graph object `g`. -/
inductive PyLooks (s : PySt) : PyOp → Nat → Prop
  | read {h g n : Nat} : HoldsNode s h g n → PyLooks s (.read h) g
  | cone {k h g n : Nat} {q : PyCone} : HoldsGraph s k → HoldsNode s h g n → PyLooks s (.cone k q h) g
  | clocks {k h g n : Nat} : HoldsGraph s k → HoldsNode s h g n → PyLooks s (.sensitivity k h) g
  | start {c : Bool} {a b g n k m : Nat} : HoldsNode s a g n → HoldsNode s b k m → PyLooks s (.findPath c a b) g
  | stop {c : Bool} {a b g n k m : Nat} : HoldsNode s a g n → HoldsNode s b k m → PyLooks s (.findPath c a b) k
  | front {p g n : Nat} {ns : List (Nat × Nat)} : HoldsPath s p ((g, n) :: ns) → PyLooks s (.front p) g
  | back {p g n : Nat} {ns : List (Nat × Nat)} : HoldsPath s p (ns ++ [(g, n)]) → PyLooks s (.back p) g
  | item {p g n i : Nat} {ns : List (Nat × Nat)} : HoldsPath s p ns → ns[i]? = some (g, n) → PyLooks s (.item p i) g
  | next {i p pos g n : Nat} {ns : List (Nat × Nat)} : i ∈ s.vars → s.val i = .pathIter p pos →
      s.val p = .path ns → ns[pos]? = some (g, n) → PyLooks s (.next i) g

/-- The call asks for a node that a path does not have, goes on with an iteration over a graph that was
built in between, or is a build that fails. -/
inductive Misuse (s : PySt) : PyOp → Prop
  | front {p : Nat} : HoldsPath s p [] → Misuse s (.front p)
  | back {p : Nat} : HoldsPath s p [] → Misuse s (.back p)
  | item {p i : Nat} {ns : List (Nat × Nat)} : HoldsPath s p ns → ns.length ≤ i → Misuse s (.item p i)
  | next {i g pos b b' : Nat} {ss : Session} : i ∈ s.vars → s.val i = .iter g pos b → s.val g = .graph ss b' →
      b' ≠ b → Misuse s (.next i)
  | build {g b : Nat} {ss : Session} {ops : List NetOp} : g ∈ s.vars → s.val g = .graph ss b →
      (∀ op ∈ ops, op.removes = false) → ss.net.calls ops = none → Misuse s (.build g ops)

/-- Calling `next` a number of times, with the objects it gives. -/
def nexts (rx : Str → Str → Bool) (it : Nat) : Nat → PySt → Option (PySt × List Nat)
  | 0, s => some (s, [])
  | k + 1, s =>
    match s.step rx (.next it) with
    | some (s1, .objs [i]) => (nexts rx it k s1).map fun r => (r.1, i :: r.2)
    | _ => none

end Verif.Spec

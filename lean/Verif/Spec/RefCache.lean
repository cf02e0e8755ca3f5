import Verif.Model.RefCache

/-!
Specification of symbol references: what the build would do without a cache.
-/
namespace Verif.Spec
open Verif.Model

/-- The operations of one thread. -/
def threadOps (t : Nat) (tr : List (Nat × RefOp)) : List RefOp := (tr.filter fun x => x.1 == t).map Prod.snd

/-- Every thread carries out jobs one after the other, each from its beginning; the last may be
unfinished. -/
def Jobs (tr : List (Nat × RefOp)) : Prop :=
  ∀ t, ∃ jobs : List RefJob, threadOps t tr <+: jobs.flatMap RefJob.ops

/-- The tables and answers when every request goes to the table of its graph. -/
def plainRun (D : Nat → Nat → SymRef) (tabs : Nat → List SymRef) (log : List (Nat × Nat × Nat × Nat)) :
    List (Nat × RefOp) → (Nat → List SymRef) × List (Nat × Nat × Nat × Nat)
  | [] => (tabs, log)
  | (_, .clear) :: l => plainRun D tabs log l
  | (_, .use g y) :: l =>
    plainRun D (fun k => if k = g then (internAt (tabs g) (D g y)).1 else tabs k)
      ((g, y, g, (internAt (tabs g) (D g y)).2) :: log) l

end Verif.Spec

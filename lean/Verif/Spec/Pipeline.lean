import Verif.Model.Pipeline

/-! Specification vocabulary for C42. -/
namespace Verif.Spec
open Verif.Model
variable {σ α ε : Type}

/-- Whatever the shared state holds at each point, the block queues exactly the reads `l` in that
order and ends with outcome `o` (`some e`: it throws `e`). -/
inductive Emits : Task σ α ε → List α → Option ε → Prop
  | ret : Emits .ret [] none
  | thr (e : ε) : Emits (.thr e) [] (some e)
  | enq {a : α} {k : Task σ α ε} {l : List α} {o : Option ε} : Emits k l o → Emits (.enq a k) (a :: l) o
  | act {f : σ → σ} {k : σ → Task σ α ε} {l : List α} {o : Option ε} :
      (∀ s, Emits (k s) l o) → Emits (.act f k) l o

/-- Whatever the shared state holds at each point, the block takes at most `n` operations. -/
inductive Within : Task σ α ε → Nat → Prop
  | ret {n : Nat} : Within .ret n
  | thr {e : ε} {n : Nat} : Within (.thr e) n
  | enq {a : α} {k : Task σ α ε} {n : Nat} : Within k n → Within (.enq a k) (n + 1)
  | act {f : σ → σ} {k : σ → Task σ α ε} {n : Nat} : (∀ s, Within (k s) n) → Within (.act f k) (n + 1)

/-- The states some schedule reaches. -/
inductive ParReach (ts : List (Task σ α ε)) (W : Nat) (s0 : Par σ α ε) : Par σ α ε → Prop
  | start : ParReach ts W s0 s0
  | step {s s' : Par σ α ε} {t : Option Nat} : ParReach ts W s0 s → s.step ts W t = some s' →
      ParReach ts W s0 s'

/-- The states some schedule reaches in exactly `n` steps. -/
inductive ParRun (ts : List (Task σ α ε)) (W : Nat) (s0 : Par σ α ε) : Nat → Par σ α ε → Prop
  | start : ParRun ts W s0 0 s0
  | step {n : Nat} {s s' : Par σ α ε} {t : Option Nat} : ParRun ts W s0 n s →
      s.step ts W t = some s' → ParRun ts W s0 (n + 1) s'

/-- No thread can move. -/
def Stuck (ts : List (Task σ α ε)) (W : Nat) (s : Par σ α ε) : Prop := ∀ t, s.step ts W t = none

/-- Worker `w` is inside the task of block `i`. -/
def Holds (s : Par σ α ε) (w i : Nat) : Prop :=
  match s.th w with
  | .idle => False
  | .start j | .body j _ | .want j _ | .save j _ | .finish j => j = i

end Verif.Spec

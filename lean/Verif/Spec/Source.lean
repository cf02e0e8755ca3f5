import Verif.Model.Elab
import Verif.Spec.Meaning
import Verif.Spec.Relabel

/-!
What a design given as text computes: values of expressions, runs of statements with their expressions,
and the designs for which the netlist accounts for every influence. Nothing here mentions slices, segments
or the notes of the analysis.
-/
namespace Verif.Spec
open Verif.Model

mutual
/-- A member of a scope with its blocks replaced. -/
def withBlock (g : Deferred → Deferred) : Member → Member
  | .block b => .block (g b)
  | .group u ms => .group u (withBlocks g ms)
  | .inst u d p ms ks => .inst u d p (withBlocks g ms) ks
  | .port p => .port p
  | .variable sym i ds => .variable sym i ds

/-- A design with its blocks replaced. -/
def withBlocks (g : Deferred → Deferred) : List Member → List Member
  | [] => []
  | m :: ms => withBlock g m :: withBlocks g ms
end

/-- An event with its block replaced. -/
def withEvent (g : Deferred → Deferred) : Event → Event
  | .block b => .block (g b)
  | e => e

/-! ### Values of expressions -/

/-- What the text of a design stands for: constants, bit `k` of the right side of an assignment, the
alternatives a conditional or case takes, and a bit inside an instance that is connected to an expression
outside. -/
structure Sense (V : Type) where
  bit : LBit → V
  value : TextLoc → Vals V → Nat → V
  pick : Bool → TextLoc → Vals V → Nat → Bool
  feed : Nat → Nat → Vals V → V

/-- Bits of signals, numbered from 0. -/
def bitsOf (R : Nat → Nat → Prop) (x : Nat) (p : Int) : Prop := ∃ q : Nat, p = q ∧ R x q

mutual
/-- `F ρ k` can be bit `k` of the expression: a static select gives the bit of the signal, a dynamic one
anything computed from its prefix and its selectors; concatenations, replications and extensions move
bits; a conditional combines bit `k` of both arms in a way that depends on its conditions; a folded
expression has its value; any other operator computes anything from what it reads. -/
def Denotes {V : Type} (bit : LBit → V) : SExpr → (Vals V → Nat → V) → Prop
  | .lsp w p sels, F =>
    (w = p.extra + 1 ∧ pathsList sels = [] ∧ ∃ x, p.root = some x ∧ ∀ ρ k, k < w → F ρ k = ρ x ((p.lo + k : Nat) : Int)) ∨
    (¬ (w = p.extra + 1 ∧ pathsList sels = [] ∧ p.root ≠ none) ∧
      ∀ k, k < w → LooksAt (bitsOf (AnyCovers (p :: pathsList sels))) fun ρ => F ρ k)
  | .concat _ ops, F => DenotesOps bit ops F
  | .repl w none inner, F => ∀ k, k < w → LooksAt (bitsOf (AnyCovers inner.paths)) fun ρ => F ρ k
  | .repl w (some _) inner, F => ∃ G, Denotes bit inner G ∧ ∀ ρ k, k < w → F ρ k = G ρ (k % inner.width)
  | .conv w signExt fold inner, F =>
    (∃ v, fold = some v ∧ v.length = w ∧ ∀ ρ k, k < w → F ρ k = bit (v.getD k .x)) ∨
    ((∀ v, fold = some v → v.length ≠ w) ∧ ∃ G, Denotes bit inner G ∧ ∀ ρ k, k < w →
      F ρ k = if k < inner.width then G ρ k
        else if signExt = true ∧ 0 < inner.width then G ρ (inner.width - 1) else bit .zero)
  | .condOp w _ _ more c l r, F => ∃ (L R : Vals V → Nat → V) (m : Vals V → V → V → V),
      Denotes bit l L ∧ Denotes bit r R ∧
      (∀ a b, LooksAt (bitsOf (AnyCovers (c.paths ++ more))) fun ρ => m ρ a b) ∧
      ∀ ρ k, k < w → F ρ k = m ρ (if k < l.width then L ρ k else bit .zero) (if k < r.width then R ρ k else bit .zero)
  | .other w fold reads, F =>
    (∃ v, fold = some v ∧ v.length = w ∧ ∀ ρ k, k < w → F ρ k = bit (v.getD k .x)) ∨
    ((∀ v, fold = some v → v.length ≠ w) ∧ ∀ k, k < w → LooksAt (bitsOf (AnyCovers reads)) fun ρ => F ρ k)

/-- A concatenation, whose operands are listed most significant first. -/
def DenotesOps {V : Type} (bit : LBit → V) : List SExpr → (Vals V → Nat → V) → Prop
  | [], _ => True
  | e :: es, F => ∃ G H, Denotes bit e G ∧ DenotesOps bit es H ∧ ∀ ρ k,
      F ρ k = if k < (es.map SExpr.width).sum then H ρ k else G ρ (k - (es.map SExpr.width).sum)
end

/-! ### Runs -/

mutual
/-- The bit of a signal that bit `k` of a left side stands for. -/
def lhsBit : SExpr → Nat → Option (Nat × Nat)
  | .lsp _ p _, k => p.root.map fun x => (x, p.lo + k)
  | .concat _ ops, k => lhsBitOps ops k
  | _, _ => none

/-- The same for a concatenation, whose operands are listed most significant first. -/
def lhsBitOps : List SExpr → Nat → Option (Nat × Nat)
  | [], _ => none
  | e :: es, k => if k < (es.map SExpr.width).sum then lhsBitOps es k else lhsBit e (k - (es.map SExpr.width).sum)
end

/-- Bit `k` of the left side is bit `p` of `x`. -/
def StandsFor (e : SExpr) (k x : Nat) (p : Int) : Prop := (lhsBit e k).map (fun t => (t.1, (t.2 : Int))) = some (x, p)

instance (e : SExpr) (k x : Nat) (p : Int) : Decidable (StandsFor e k x p) := inferInstanceAs (Decidable (_ = _))

/-- The last bit of the left side, from `lo` on and below the given number, that is bit `p` of `x`. -/
def lastBit (e : SExpr) (x : Nat) (p : Int) (lo : Nat) : Nat → Option Nat
  | 0 => none
  | n + 1 => if lo ≤ n ∧ StandsFor e n x p then some n else lastBit e x p lo n

/-- The values after an assignment: a bit gets the value of the last bit of the left side that stands for
it. All of them are computed from the values before. -/
def putBits {V : Type} (F : Vals V → Nat → V) (lhs : SExpr) (ρ : Vals V) : Vals V := fun x p =>
  match lastBit lhs x p 0 lhs.width with
  | some k => F ρ k
  | none => ρ x p

/-- The run of a statement: the values after it, when `sel` tells which alternatives to take.
Non-blocking assignments take effect later. -/
def runText {V : Type} (M : Sense V) : SStmt → (Nat → Bool) → Vals V → Vals V
  | .skip, _, ρ | .eval _, _, ρ | .dead, _, ρ => ρ
  | .assign b a, _, ρ => if b then putBits (M.value a.loc) a.lhs ρ else ρ
  | .cond k loc _ t, _, ρ => runText M t (M.pick k loc ρ) ρ
  | .seq s t, sel, ρ => runText M t sel (runText M s sel ρ)
  | .choose _ s t, sel, ρ =>
    if sel 0 then runText M s (fun n => sel (n + 1)) ρ else runText M t (fun n => sel (n + 1)) ρ

/-- The statement assigns bit `p` of `x` (blocking). -/
def Assigns : SStmt → Nat → Int → Prop
  | .assign b a, x, p => b = true ∧ ∃ k, k < a.lhs.width ∧ StandsFor a.lhs k x p
  | .cond _ _ _ t, x, p => Assigns t x p
  | .seq s t, x, p | .choose _ s t, x, p => Assigns s x p ∨ Assigns t x p
  | _, _, _ => False

/-- The statement of a block. -/
def SDeferred.stmt : SDeferred → SStmt
  | .procedural _ _ st => st
  | .continuous a => .assign true a

/-- The block is edge-triggered. -/
def TextClocked : SDeferred → Prop
  | .procedural k body _ => Clocked (.procedural k body .skip)
  | .continuous _ => False

/-! ### Texts for which the netlist is complete -/

/-- The assignment is not in a `force` statement or an output argument, both sides have the same width and
follow the width rules of the language, and selects are static on the left, and on the right unless both
sides are taken as a whole. -/
structure Proper (S : SynEnv) (a : SAsg) : Prop where
  force : a.force = false
  lvalueArg : a.lvalueArg = false
  left : WT S.cuts a.lhs
  right : WT S.cuts a.rhs
  width : a.lhs.width = a.rhs.width
  target : Lvalue a.lhs
  fixed : Static a.lhs
  static : S.T.opts.resolveBits = true → a.integral = true → Static a.rhs

/-- The meaning fits the text: assignments have values of their right sides, and conditions look at what
is read in them. -/
def Suits {V : Type} (M : Sense V) (S : SynEnv) : SStmt → Prop
  | .assign _ a => Proper S a ∧ Denotes M.bit a.rhs (M.value a.loc)
  | .cond k loc es t => LooksAt (bitsOf (AnyCovers (pathsList es))) (M.pick k loc) ∧ Suits M S t
  | .seq s t | .choose _ s t => Suits M S s ∧ Suits M S t
  | _ => True

mutual
/-- The path is assigned by the left side. -/
def Target : SExpr → LspPath → Prop
  | .lsp _ p _, q => q = p
  | .concat _ ops, q => TargetOps ops q
  | _, _ => False

/-- The same for the operands of a concatenation. -/
def TargetOps : List SExpr → LspPath → Prop
  | [], _ => False
  | e :: es, q => Target e q ∨ TargetOps es q
end

mutual
/-- The path is read to tell what the left side assigns: it stands in a selector. -/
def Index : SExpr → LspPath → Prop
  | .lsp _ _ sels, q => q ∈ pathsList sels
  | .concat _ ops, q => IndexOps ops q
  | _, _ => False

/-- The same for the operands of a concatenation. -/
def IndexOps : List SExpr → LspPath → Prop
  | [], _ => False
  | e :: es, q => Index e q ∨ IndexOps es q
end

mutual
/-- What is selected from, where its bits are taken on their own, is a signal and not the result of a call or
the like. -/
def Rooted : SExpr → Prop
  | .lsp _ p _ => p.root ≠ none
  | .concat _ ops => RootedOps ops
  | .repl _ _ e | .conv _ _ _ e => Rooted e
  | .condOp _ _ _ _ _ l r => Rooted l ∧ Rooted r
  | .other .. => True

/-- The same for the operands of a concatenation. -/
def RootedOps : List SExpr → Prop
  | [] => True
  | e :: es => Rooted e ∧ RootedOps es
end

/-- Both sides of every assignment follow the width rules of the language and select from signals. -/
def Legal (S : SynEnv) : SStmt → Prop
  | .assign _ a => WT S.cuts a.lhs ∧ WT S.cuts a.rhs ∧ Rooted a.lhs ∧ Rooted a.rhs
  | .cond _ _ _ t => Legal S t
  | .seq s t | .choose _ s t => Legal S s ∧ Legal S t
  | _ => True

/-! ### Places -/

/-- The places of the assignments, conditionals and cases of a statement. -/
def marksOf : SStmt → List TextLoc
  | .assign _ a => [a.loc]
  | .cond _ loc _ t => loc :: marksOf t
  | .seq s t | .choose _ s t => marksOf s ++ marksOf t
  | _ => []

/-- A statement with the places of assignments, conditionals and cases changed. -/
def moveText (f : TextLoc → TextLoc) : SStmt → SStmt
  | .skip => .skip
  | .eval e => .eval e
  | .assign b a => .assign b { a with loc := f a.loc }
  | .cond k loc es t => .cond k (f loc) es (moveText f t)
  | .dead => .dead
  | .seq s t => .seq (moveText f s) (moveText f t)
  | .choose i s t => .choose i (moveText f s) (moveText f t)

/-- A block with the places changed. -/
def moveTextBlock (f : TextLoc → TextLoc) : SDeferred → SDeferred
  | .procedural k body st => .procedural k body (moveText f st)
  | .continuous a => .continuous { a with loc := f a.loc }

/-- A design with the places in its text changed. -/
def moveDesign (f : TextLoc → TextLoc) (src : SrcDesign) : SrcDesign :=
  ⟨src.tree, fun b => moveTextBlock f (src.text b)⟩

/-- Places of segments that tell the segments of an assignment apart. -/
def spot (l : TextLoc) (i : Nat) : TextLoc := ⟨l.file, l.line, (l.col + i) * (l.col + i) + l.col⟩

/-- What the analysis sees of a block. -/
def seen (S : SynEnv) (place : TextLoc → Nat → TextLoc) (text : Deferred → SDeferred) (b : Deferred) : Deferred :=
  match elabBlock S place (text b) with
  | .ok b' => b'
  | .error _ => .procedural .initial .other .skip

/-- The design that the analysis sees. -/
def seenAll (S : SynEnv) (place : TextLoc → Nat → TextLoc) (src : SrcDesign) : List Member :=
  withBlocks (seen S place src.text) src.tree

/-! ### Designs -/

/-- An input connection with actual `e` supplies bit `j` of `x` inside an instance. -/
def Wired (es : List Event) (x j : Nat) (k : Conn) (e : SExpr) : Prop :=
  ∃ p, k.output = false ∧ Before es p k ∧ LastSupply es x j p ∧ (∃ i, k.formal = .port p.sym i) ∧ k.actual = some e

/-- The meaning fits the design: its blocks (those that are not edge-triggered), and its input connections,
which are resolved bit by bit only if they select statically. `bs` are the blocks and `es` the events. -/
structure TextFaithful {V : Type} (M : Sense V) (S : SynEnv) (text : Deferred → SDeferred) (bs : List Deferred)
    (es : List Event) : Prop where
  blocks : ∀ b ∈ bs, ¬ TextClocked (text b) → Suits M S (SDeferred.stmt (text b))
  inlets : ∀ x j k e, Wired es x j k e → Simple S.T.opts S.T.D k ∧ j < e.width ∧
    ∃ G, Denotes M.bit e G ∧ ∀ ρ, M.feed x j ρ = G ρ j

/-- The values are stable: every block that is not edge-triggered gives the bits it assigns the values they
have, and so does every connection. -/
structure TextSolves {V : Type} (M : Sense V) (E : TravEnv) (text : Deferred → SDeferred) (bs : List Deferred)
    (es : List Event) (σ : Vals V) : Prop where
  blocks : ∀ b ∈ bs, ¬ TextClocked (text b) → ∀ x p, Assigns (SDeferred.stmt (text b)) x p →
    σ x p = runText M (SDeferred.stmt (text b)) (fun _ => true) σ x p
  inlets : ∀ x j k e, Wired es x j k e → σ x j = M.feed x j σ
  outlets : ∀ x j y q, Outlet E es x j y q → σ y q = σ x j

end Verif.Spec

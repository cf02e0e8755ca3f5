import Verif.Model.BitSlice

/-!
Specifications for bit-slice decomposition: tilings, width rules, and the language's routing of
signal bits to expression bits. None of these mention slices' construction.
-/
namespace Verif.Spec
open Verif.Model

/-- Slices are non-empty and follow each other without gap or overlap from `lo` to `hi`. -/
def Tiled : Nat → Nat → List Slice → Prop
  | lo, hi, [] => lo = hi
  | lo, hi, s :: ss => s.lo = lo ∧ s.lo < s.hi ∧ Tiled s.hi hi ss

/-- The same for segments. -/
def TiledSeg : Nat → Nat → List Seg → Prop
  | lo, hi, [] => lo = hi
  | lo, hi, s :: ss => s.lo = lo ∧ s.lo < s.hi ∧ TiledSeg s.hi hi ss

mutual
/-- Widths agree with the language rules. An LSP with cut hints must be selected statically, so
that its width is the width of its bounds. A conditional with one condition and no pattern has no
further conditions that could read anything. -/
def WT (cuts : CutReg) : SExpr → Prop
  | .lsp w p _ => w = p.extra + 1 ∨ ∀ sym, p.root = some sym → cuts.cutsFor sym = none
  | .concat w ops => w = (ops.map SExpr.width).sum ∧ WTs cuts ops
  | .repl w count inner =>
    match count with
    | none => True
    | some c => w = c.toNat * inner.width ∧ WT cuts inner
  | .conv _ _ _ inner => WT cuts inner
  | .condOp _ nConds pattern more _ l r =>
    WT cuts l ∧ WT cuts r ∧ (nConds = 1 → pattern = false → more = [])
  | .other .. => True

/-- Widths of several expressions. -/
def WTs (cuts : CutReg) : List SExpr → Prop
  | [] => True
  | e :: es => WT cuts e ∧ WTs cuts es
end

/-- A path covers bit `b` of symbol `sym`. -/
def PathCovers (p : LspPath) (sym b : Nat) : Prop := p.root = some sym ∧ p.lo ≤ b ∧ b ≤ p.hi

/-- Some path in the list covers the signal bit. -/
def AnyCovers (ps : List LspPath) (sym b : Nat) : Prop := ∃ p ∈ ps, PathCovers p sym b

mutual
/-- The signal bits that the language routes to bit `k` of an expression: a static select routes
one bit, a dynamic select any bit of its prefix plus its selectors, extension routes the operand's
own bits and, when sign-extending, its top bit to every bit above; a conditional routes both arms'
bit `k` and everything its condition reads; any other operator routes everything it reads. -/
def Routes : SExpr → Nat → Nat → Nat → Prop
  | .lsp w p sels, k, sym, b =>
    (w = p.extra + 1 ∧ p.root = some sym ∧ b = p.lo + k) ∨
    (w ≠ p.extra + 1 ∧ PathCovers p sym b) ∨ AnyCovers (pathsList sels) sym b
  | .concat _ ops, k, sym, b => RoutesOps ops k sym b
  | .repl _ none inner, _, sym, b => AnyCovers inner.paths sym b
  | .repl _ (some _) inner, k, sym, b => Routes inner (k % inner.width) sym b
  | .conv w signExt fold inner, k, sym, b =>
    (∀ v, fold = some v → v.length ≠ w) ∧
      ((k < inner.width ∧ Routes inner k sym b) ∨
       (inner.width ≤ k ∧ signExt = true ∧ Routes inner (inner.width - 1) sym b))
  | .condOp _ _ _ more c l r, k, sym, b =>
    (k < l.width ∧ Routes l k sym b) ∨ (k < r.width ∧ Routes r k sym b) ∨
      AnyCovers c.paths sym b ∨ AnyCovers more sym b
  | .other w fold reads, _, sym, b =>
    (∀ v, fold = some v → v.length ≠ w) ∧ AnyCovers reads sym b

/-- Routing through a concatenation, whose operands are listed most significant first. -/
def RoutesOps : List SExpr → Nat → Nat → Nat → Prop
  | [], _, _, _ => False
  | e :: es, k, sym, b =>
    (k < (es.map SExpr.width).sum ∧ RoutesOps es k sym b) ∨
    ((es.map SExpr.width).sum ≤ k ∧ Routes e (k - (es.map SExpr.width).sum) sym b)
end

mutual
/-- The values of constants that the language routes to bit `k`: literals and foldable expressions
give their own bit, zero-extension gives zero and sign-extension the operand's top bit. -/
def ConstBit : SExpr → Nat → LBit → Prop
  | .lsp .., _, _ => False
  | .concat _ ops, k, v => ConstBitOps ops k v
  | .repl _ _ inner, k, v => ConstBit inner (k % inner.width) v
  | .conv w signExt fold inner, k, v =>
    (∃ bits, fold = some bits ∧ bits.length = w ∧ bits[k]? = some v) ∨
    ((∀ bits, fold = some bits → bits.length ≠ w) ∧
      ((k < inner.width ∧ ConstBit inner k v) ∨
       (inner.width ≤ k ∧ signExt = false ∧ v = .zero) ∨
       (inner.width ≤ k ∧ signExt = true ∧ ConstBit inner (inner.width - 1) v)))
  | .condOp _ _ _ _ _ l r, k, v => ConstBit l k v ∨ ConstBit r k v
  | .other w fold _, k, v => ∃ bits, fold = some bits ∧ bits.length = w ∧ bits[k]? = some v

/-- Constants through a concatenation. -/
def ConstBitOps : List SExpr → Nat → LBit → Prop
  | [], _, _ => False
  | e :: es, k, v =>
    (k < (es.map SExpr.width).sum ∧ ConstBitOps es k v) ∨
    ((es.map SExpr.width).sum ≤ k ∧ ConstBit e (k - (es.map SExpr.width).sum) v)
end

mutual
/-- Every select is static and nothing is sign-extended (unless folded to a constant). -/
def Static : SExpr → Prop
  | .lsp w p sels => w = p.extra + 1 ∧ pathsList sels = []
  | .concat _ ops => StaticOps ops
  | .repl _ _ inner => Static inner
  | .conv w signExt fold inner =>
    (∃ v, fold = some v ∧ v.length = w) ∨
      (Static inner ∧ (signExt = true → w ≤ inner.width))
  | .condOp _ _ _ _ _ l r => Static l ∧ Static r
  | .other .. => True

/-- All operands static. -/
def StaticOps : List SExpr → Prop
  | [] => True
  | e :: es => Static e ∧ StaticOps es
end

mutual
/-- Built without the forms the decomposition treats as a whole: no narrowing conversion (unless
folded), no conditional with pattern or with arms of another width, no replication by a
non-constant. -/
def Aligned : SExpr → Prop
  | .lsp .. => True
  | .concat _ ops => AlignedOps ops
  | .repl _ count inner => count ≠ none ∧ Aligned inner
  | .conv w _ fold inner =>
    (∃ v, fold = some v ∧ v.length = w) ∨ (Aligned inner ∧ inner.width ≤ w)
  | .condOp w nConds pattern more _ l r =>
    l.width = r.width ∧ l.width = w ∧ nConds = 1 ∧ pattern = false ∧ more = [] ∧
      Aligned l ∧ Aligned r
  | .other .. => True

/-- All operands aligned. -/
def AlignedOps : List SExpr → Prop
  | [] => True
  | e :: es => Aligned e ∧ AlignedOps es
end

mutual
/-- Left sides: selected signals, and concatenations of left sides (IEEE 1800-2017 §10.3, §11.4.12).
-/
def Lvalue : SExpr → Prop
  | .lsp _ p _ => p.root ≠ none
  | .concat _ ops => LvalueOps ops
  | _ => False

/-- All operands are left sides. -/
def LvalueOps : List SExpr → Prop
  | [] => True
  | e :: es => Lvalue e ∧ LvalueOps es
end

/-- Bit `k` of a segment is recorded as driving bit `b` of `sym`: the ranges driven by a segment are
as wide as the segment, and are read off bit by bit from their lower ends. -/
def DrivesBit (seg : Seg) (k sym b : Nat) : Prop :=
  ∃ d ∈ seg.drives, d.1 = sym ∧ (b : Int) = d.2.left + ((k : Int) - seg.lo) ∧
    d.2.right = d.2.left + (seg.hi - seg.lo : Nat) - 1

/-- A source is recorded as feeding bit `b` of `sym` into bit `k` of a segment: bit by bit for a
selected signal, with the full ranges for an expression taken as a whole. -/
def SrcReadsBit (seg : Seg) (k sym b : Nat) : Src → Prop
  | .opaque e => ∃ d ∈ (Src.opaque e).reads seg, d.1 = sym ∧ d.2.left ≤ b ∧ (b : Int) ≤ d.2.right
  | s => ∃ d ∈ s.reads seg, d.1 = sym ∧ (b : Int) = d.2.left + ((k : Int) - seg.lo) ∧
      d.2.right = d.2.left + (seg.hi - seg.lo : Nat) - 1

/-- Bit `k` of a segment is recorded as depending on bit `b` of `sym`. -/
def ReadsBit (seg : Seg) (k sym b : Nat) : Prop := ∃ s ∈ seg.rhs, SrcReadsBit seg k sym b s

end Verif.Spec

import Verif.Model.Cuts

/-!
Bit-slice decomposition of expressions: `source/BitSlice.hpp`, `source/BitSliceList.hpp`,
`source/BitSliceList.cpp`, the segment consumers of `source/DataFlowAnalysis.cpp` and
`createConstantForSegment` of `source/NodeFactory.cpp`.

Bit positions are `uint64_t` in the code and natural numbers here; the casts to `int32_t` are exact
for the widths slang allows (below 2^24 bits).
-/
namespace Verif.Model

/-- One bit of a slang `SVInt` (source/BitSlice.hpp:52). -/
inductive LBit where
  | zero | one | x | z
deriving DecidableEq, Repr

/-- What the code uses of a slang `ValuePath` (source/BitSliceList.cpp:264-274,
source/DataFlowAnalysis.cpp:469-477): the root symbol and `lspBounds`, the bit range of the longest
static prefix. slang delivers ascending bounds; `hi` is stored as an offset from `lo` so that this
holds by construction. -/
structure LspPath where
  root : Option Nat
  lo : Nat
  extra : Nat
deriving DecidableEq, Repr

/-- `lspBounds.second` (source/BitSliceList.cpp:274). -/
def LspPath.hi (p : LspPath) : Nat := p.lo + p.extra

/-- Expressions as seen by `buildInto` (source/BitSliceList.cpp:61-239). The first number is the
selectable width of the expression's type.
- `lsp`: NamedValue, HierarchicalValue, ElementSelect, RangeSelect or MemberAccess, with its value
  path and the selector expressions inside it.
- `repl`: `count` is the evaluated count, `none` when it is not an integer that fits 64 bits.
- `conv`: `fold` is the value of the expression when its type is integral and it evaluates to an
  integer; `signExt` is `inner.type->isSigned() && conv.type->isSigned()` (line 139).
- `condOp`: number of conditions, whether the first has a pattern, the paths in that pattern or in
  further conditions, the first condition, and the two arms.
- `other`: every other kind; `fold` as for `conv`, and the paths read inside it. -/
inductive SExpr where
  | lsp (w : Nat) (p : LspPath) (sels : List SExpr)
  | concat (w : Nat) (ops : List SExpr)
  | repl (w : Nat) (count : Option Int) (inner : SExpr)
  | conv (w : Nat) (signExt : Bool) (fold : Option (List LBit)) (inner : SExpr)
  | condOp (w : Nat) (nConds : Nat) (pattern : Bool) (more : List LspPath) (cond l r : SExpr)
  | other (w : Nat) (fold : Option (List LBit)) (reads : List LspPath)

/-- `exprWidth` (source/BitSliceList.cpp:28-30). -/
def SExpr.width : SExpr → Nat
  | .lsp w .. => w
  | .concat w _ => w
  | .repl w .. => w
  | .conv w .. => w
  | .condOp w .. => w
  | .other w .. => w

mutual
/-- The paths a visit of the expression reports (`visit(*src.opaqueExpr)` at
source/DataFlowAnalysis.cpp:321 and `ValuePath::visitPaths` at
source/PortConnectionHandler.cpp:417-430): every value path inside it, selectors included. -/
def SExpr.paths : SExpr → List LspPath
  | .lsp _ p sels => p :: pathsList sels
  | .concat _ ops => pathsList ops
  | .repl _ _ inner => inner.paths
  | .conv _ _ _ inner => inner.paths
  | .condOp _ _ _ more c l r => c.paths ++ more ++ l.paths ++ r.paths
  | .other _ _ reads => reads

/-- The paths of several expressions (source/DataFlowAnalysis.cpp:321). -/
def pathsList : List SExpr → List LspPath
  | [] => []
  | e :: es => e.paths ++ pathsList es
end

/-- `BitSliceSource` (source/BitSlice.hpp:23-111), one constructor per kind with the fields that
kind uses. -/
inductive Src where
  | lsp (p : LspPath) (srcLo srcHi : Nat)
  | padding (isSignExt : Bool)
  | opaque (e : SExpr)
  | portNode (node : Nat) (srcLo srcHi : Nat)
  | const (v : List LBit) (srcLo srcHi : Nat)

/-- `BitSlice` (source/BitSlice.hpp:115-119). -/
structure Slice where
  lo : Nat
  hi : Nat
  sources : List Src

/-- `BitSliceList::width` (source/BitSliceList.cpp:243-245). -/
def listWidth (l : List Slice) : Nat :=
  match l.getLast? with
  | none => 0
  | some s => s.hi

/-- `collectCuts` (source/BitSliceList.cpp:32-40). -/
def collectCuts (l : List Slice) : List Nat := 0 :: l.map Slice.hi

/-- `mergeCuts` (source/BitSliceList.cpp:42-48). -/
def mergeCuts (a b : List Nat) : List Nat := sortUnique (a ++ b)

/-- `findSliceContaining` (source/BitSliceList.cpp:51-59). -/
def findSlice (l : List Slice) (bit : Nat) : Option Slice :=
  l.find? fun s => decide (bit ≥ s.lo) && decide (bit < s.hi)

/-- `pushOpaque` (source/BitSliceList.cpp:247-256). -/
def pushOpaque (out : List Slice) (e : SExpr) : List Slice :=
  if e.width = 0 then out
  else out ++ [⟨listWidth out, listWidth out + e.width, [.opaque e]⟩]

/-- `pushConstant` (source/BitSliceList.cpp:307-317). -/
def pushConstant (out : List Slice) (w : Nat) (v : List LBit) : List Slice :=
  if w = 0 then out
  else out ++ [⟨listWidth out, listWidth out + w, [.const v (listWidth out) (listWidth out + w)]⟩]

/-- The `emit` loop of `pushLsp` (source/BitSliceList.cpp:280-293): one slice up to each cut and
one for the rest. -/
def emitLoop (lo lspLo lspHi : Nat) (src : Src) : Nat → List Nat → List Slice
  | prev, [] => [⟨lo + (prev - lspLo), lo + (lspHi - lspLo), [src]⟩]
  | prev, c :: cs =>
    ⟨lo + (prev - lspLo), lo + (c - lspLo), [src]⟩ :: emitLoop lo lspLo lspHi src c cs

/-- The hints strictly inside an LSP (source/BitSliceList.cpp:275-276, 289). The iterators never
cross because `lspLo < lspHi` (see `hintsInside`). -/
def hintsOf (hints : List Nat) (p : LspPath) : List Nat :=
  (hints.take (lowerBound hints (p.hi + 1))).drop (upperBound hints p.lo)

/-- `pushLsp` (source/BitSliceList.cpp:258-301). `cuts` is `cutsFor`, or constantly `none` when no
registry is passed. -/
def pushLsp (cuts : CutReg) (out : List Slice) (w : Nat) (p : LspPath) : List Slice :=
  if w = 0 then out
  else
    let lo := listWidth out
    let plain := out ++ [⟨lo, lo + w, [.lsp p lo (lo + w)]⟩]
    match p.root with
    | none => plain
    | some sym =>
      match cuts.cutsFor sym with
      | none => plain
      | some hints =>
        match hintsOf hints p with
        | [] => plain
        | c :: cs =>
          out ++ emitLoop lo p.lo (p.hi + 1) (.lsp p lo (lo + (p.hi + 1 - p.lo))) p.lo (c :: cs)

/-- Repeat a step (the loop at source/BitSliceList.cpp:105-107). -/
def iterate {α : Type} (f : α → α) : Nat → α → α
  | 0, x => x
  | n + 1, x => iterate f n (f x)

/-- The consecutive pairs of a cut list (the loops at source/BitSliceList.cpp:204, 339). -/
def pairs : List Nat → List (Nat × Nat)
  | a :: b :: l => (a, b) :: pairs (b :: l)
  | _ => []

/-- The sources of the slice containing a bit, if any (source/BitSliceList.cpp:208-217,
342-351). -/
def sourcesAt (l : List Slice) (bit : Nat) : List Src :=
  match findSlice l bit with
  | some s => s.sources
  | none => []

/-- The `translate` lambda (source/BitSliceList.cpp:195-203). -/
def Src.translate (base : Nat) : Src → Src
  | .lsp p lo hi => .lsp p (lo + base) (hi + base)
  | .portNode n lo hi => .portNode n (lo + base) (hi + base)
  | .const v lo hi => .const v (lo + base) (hi + base)
  | s => s

/-- The unification loop of a conditional (source/BitSliceList.cpp:204-220). -/
def unify (base : Nat) (l r : List Slice) (cond : Src) (grid : List (Nat × Nat)) : List Slice :=
  grid.map fun c =>
    ⟨base + c.1, base + c.2,
      (sourcesAt l c.1).map (Src.translate base) ++ (sourcesAt r c.1).map (Src.translate base) ++
        [cond]⟩

/-- The source of an extension's padding slice (source/BitSliceList.cpp:135-148). -/
def padSource (signExt : Bool) (lo padWidth : Nat) : Src :=
  if signExt then .padding signExt
  else .const (List.replicate padWidth .zero) lo (lo + padWidth)

mutual
/-- `buildInto` (source/BitSliceList.cpp:61-239). -/
def buildInto (cuts : CutReg) (out : List Slice) : SExpr → List Slice
  | .lsp w p _ => pushLsp cuts out w p
  | .concat _ ops => buildOps cuts out ops
  | .repl w count inner =>
    match count with
    | none => pushOpaque out (.repl w none inner)
    | some c => iterate (fun o => buildInto cuts o inner) c.toNat out
  | .conv w signExt fold inner =>
    if fold.any (fun v => v.length == w) then
      pushConstant out w (fold.getD [])
    else if w = inner.width then buildInto cuts out inner
    else if w > inner.width then
      let mid := buildInto cuts out inner
      let lo := listWidth mid
      let padWidth := w - inner.width
      mid ++ [⟨lo, lo + padWidth, [padSource signExt lo padWidth]⟩]
    else pushOpaque out (.conv w signExt fold inner)
  | .condOp w nConds pattern more c l r =>
    if l.width ≠ r.width ∨ l.width ≠ w then pushOpaque out (.condOp w nConds pattern more c l r)
    else if nConds ≠ 1 ∨ pattern = true then pushOpaque out (.condOp w nConds pattern more c l r)
    else
      let ls := buildInto cuts [] l
      let rs := buildInto cuts [] r
      if listWidth ls ≠ listWidth rs then pushOpaque out (.condOp w nConds pattern more c l r)
      else
        out ++ unify (listWidth out) ls rs (.opaque c)
          (pairs (mergeCuts (collectCuts ls) (collectCuts rs)))
  | .other w fold reads =>
    if fold.any (fun v => v.length == w) then pushConstant out w (fold.getD [])
    else pushOpaque out (.other w fold reads)

/-- The reversed operand loop of a concatenation (source/BitSliceList.cpp:78-80): the last operand
is appended first. -/
def buildOps (cuts : CutReg) (out : List Slice) : List SExpr → List Slice
  | [] => out
  | e :: es => buildInto cuts (buildOps cuts out es) e
end

/-- `BitSliceList::build` (source/BitSliceList.cpp:319-329). -/
def build (enabled : Bool) (cuts : CutReg) (e : SExpr) : List Slice :=
  if !enabled then pushOpaque [] e else buildInto cuts [] e

/-- `Segment` (source/BitSliceList.hpp:76-83). -/
structure Seg where
  lo : Nat
  hi : Nat
  lhs : List Src
  rhs : List Src

/-- `Segment::width` (source/BitSliceList.hpp:82). -/
def Seg.width (s : Seg) : Nat := s.hi - s.lo

/-- `alignSegments` (source/BitSliceList.cpp:331-355). `none` is the failed assertion of line 333. -/
def alignSegments (lhs rhs : List Slice) : Option (List Seg) :=
  if listWidth lhs ≠ listWidth rhs then none
  else
    some ((pairs (mergeCuts (collectCuts lhs) (collectCuts rhs))).map fun c =>
      ⟨c.1, c.2, sourcesAt lhs c.1, sourcesAt rhs c.1⟩)

/-- The range an LSP source drives or reads for a segment (`driveLhsLspSegment`,
source/DataFlowAnalysis.cpp:473-478; `driveRhsLspSegment`, lines 490-495;
source/PortConnectionHandler.cpp:388-396). -/
def lspRange (p : LspPath) (srcLo : Nat) (seg : Seg) : BitRange :=
  ⟨(p.lo : Int) + (seg.lo - srcLo : Nat), (p.lo : Int) + (seg.lo - srcLo : Nat) + seg.width - 1⟩

/-- The lvalue ranges of one segment (source/DataFlowAnalysis.cpp:302-307): symbol and range of
every LSP source. A path without a root symbol is dereferenced there, so left sides must have
one. -/
def Seg.drives (seg : Seg) : List (Nat × BitRange) :=
  seg.lhs.filterMap fun s =>
    match s with
    | .lsp p lo _ => p.root.map fun r => (r, lspRange p lo seg)
    | _ => none

/-- The rvalue ranges one source contributes to a segment (source/DataFlowAnalysis.cpp:313-341): an
LSP reads its mapped range, an opaque expression reads the full range of every path inside it. -/
def Src.reads (seg : Seg) : Src → List (Nat × BitRange)
  | .lsp p lo _ => p.root.toList.map fun r => (r, lspRange p lo seg)
  | .opaque e => e.paths.filterMap fun p => p.root.map fun r => (r, ⟨p.lo, p.hi⟩)
  | _ => []

/-- How an assignment or a port connection is walked (source/DataFlowAnalysis.cpp:249-287,
source/PortConnectionHandler.cpp:216-253): by the legacy walk, not at all, segment by segment, or
the assertion of `alignSegments` fails. -/
inductive Walk where
  | legacy
  | nothing
  | assertFails
  | segments (segs : List Seg)

/-- The loop over `alignSegments` (source/DataFlowAnalysis.cpp:287,
source/PortConnectionHandler.cpp:251). -/
def walkSegments (lhs rhs : List Slice) : Walk :=
  match alignSegments lhs rhs with
  | none => .assertFails
  | some segs => .segments segs

/-- How an assignment is walked (source/DataFlowAnalysis.cpp:249-287). `integral` is whether both
types are. -/
def assignWalk (resolveBits integral : Bool) (cuts : CutReg) (lhs rhs : SExpr) : Walk :=
  if !resolveBits then .legacy
  else if !integral then .legacy
  else if listWidth (build true cuts lhs) ≠ listWidth (build true cuts rhs) then .legacy
  else walkSegments (build true cuts lhs) (build true cuts rhs)

/-- `SVInt::slice` (called at source/NodeFactory.cpp:46): the bits from `lsb` to `msb`; positions
outside the value read as X. -/
def sliceBits (v : List LBit) (msb lsb : Nat) : List LBit :=
  (List.range (msb + 1 - lsb)).map fun i => v.getD (lsb + i) .x

/-- `createConstantForSegment` (source/NodeFactory.cpp:34-54): value and width of the node made for
a constant source. -/
def constantForSegment (v : List LBit) (srcLo : Nat) (seg : Seg) : List LBit × Nat :=
  let offset := seg.lo - srcLo
  if v.length ≠ seg.width then
    (sliceBits v (offset + seg.width - 1) offset, seg.width)
  else (v, seg.width)

end Verif.Model

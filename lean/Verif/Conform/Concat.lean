import Verif.Conform.Base

/-!
The model on designs of the project's unit tests: bit-aligned assignments and connections. Each design is that of a test under
`tests/unit`, written out by a script from the SystemVerilog text of the test, and the checks are those of
the test. These are tests of the model, not proofs about the code.
-/
namespace Verif.Conform.Concat
open Verif.Model

/-- Concat LHS/RHS: {a,b} = {c,d} has no cross edges. tests/unit/ConcatTests.cpp:6-19. -/
def concatLhsRhsABC : Design' :=
  { sigs := [⟨chs "c", 1, true, chs "m.c"⟩, ⟨chs "d", 1, true, chs "m.d"⟩, ⟨chs "a", 1, true, chs "m.a"⟩, ⟨chs "b",
      1, true, chs "m.b"⟩]
    tree := [.inst false (chs "m") (chs "m") [.port ⟨100, some 0, .input, [⟨0, 0, true⟩]⟩, .port ⟨101, some 1,
        .input, [⟨0, 0, true⟩]⟩, .port ⟨102, some 2, .output, [⟨0, 0, false⟩]⟩, .port ⟨103, some 3, .output, [⟨0,
        0, false⟩]⟩, blk 0]
        []]
    blocks := [cont (.concat 2 [.lsp 1 ⟨some 2, 0, 0⟩ [], .lsp 1 ⟨some 3, 0, 0⟩ []]) (.concat 2 [.lsp 1 ⟨some 0, 0,
        0⟩ [], .lsp 1 ⟨some 1, 0, 0⟩ []])] }

theorem concatLhsRhsABC_ok : meets concatLhsRhsABC [
    .path (chs "m.c") (chs "m.a") true, .path (chs "m.c") (chs "m.b") false, .path (chs "m.d") (chs "m.b") true,
    .path (chs "m.d") (chs "m.a") false] = true := by
  decide +kernel

/-- Concat LHS/RHS: {a,b} = c[1:0] attributes c[0]->b, c[1]->a. tests/unit/ConcatTests.cpp:21-37. -/
def concatLhsRhsABC2 : Design' :=
  { sigs := [⟨chs "c", 2, true, chs "m.c"⟩, ⟨chs "a", 1, true, chs "m.a"⟩, ⟨chs "b", 1, true, chs "m.b"⟩]
    tree := [.inst false (chs "m") (chs "m") [.port ⟨100, some 0, .input, [⟨0, 1, true⟩]⟩, .port ⟨101, some 1,
        .output, [⟨0, 0, false⟩]⟩, .port ⟨102, some 2, .output, [⟨0, 0, false⟩]⟩, blk 0]
        []]
    blocks := [cont (.concat 2 [.lsp 1 ⟨some 1, 0, 0⟩ [], .lsp 1 ⟨some 2, 0, 0⟩ []]) (.lsp 2 ⟨some 0, 0, 1⟩ [])] }

theorem concatLhsRhsABC2_ok : meets concatLhsRhsABC2 [
    .path (chs "m.c") (chs "m.a") true, .path (chs "m.c") (chs "m.b") true, .atLeast (chs "m.a") 0 0 1,
    .atLeast (chs "m.b") 0 0 1, .distinct (chs "m.a") 0 0 (chs "m.b") 0 0] = true := by
  decide +kernel

/-- Concat: a = {b,c} attributes b to high bit, c to low. tests/unit/ConcatTests.cpp:39-55. -/
def concatABCAttributesB : Design' :=
  { sigs := [⟨chs "b", 1, true, chs "m.b"⟩, ⟨chs "c", 1, true, chs "m.c"⟩, ⟨chs "a", 2, true, chs "m.a"⟩]
    tree := [.inst false (chs "m") (chs "m") [.port ⟨100, some 0, .input, [⟨0, 0, true⟩]⟩, .port ⟨101, some 1,
        .input, [⟨0, 0, true⟩]⟩, .port ⟨102, some 2, .output, [⟨0, 1, false⟩]⟩, blk 0]
        []]
    blocks := [cont (.lsp 2 ⟨some 2, 0, 1⟩ []) (.concat 2 [.lsp 1 ⟨some 0, 0, 0⟩ [], .lsp 1 ⟨some 1, 0, 0⟩ []])] }

theorem concatABCAttributesB_ok : meets concatABCAttributesB [
    .path (chs "m.b") (chs "m.a") true, .path (chs "m.c") (chs "m.a") true, .atLeast (chs "m.a") 1 1 1,
    .atLeast (chs "m.a") 0 0 1, .distinct (chs "m.a") 1 1 (chs "m.a") 0 0] = true := by
  decide +kernel

/-- Concat: a = {4 replicate b} drives every bit of a. tests/unit/ConcatTests.cpp:57-68. -/
def concatA4ReplicateBDrives : Design' :=
  { sigs := [⟨chs "b", 1, true, chs "m.b"⟩, ⟨chs "a", 4, true, chs "m.a"⟩]
    tree := [.inst false (chs "m") (chs "m") [.port ⟨100, some 0, .input, [⟨0, 0, true⟩]⟩, .port ⟨101, some 1,
        .output, [⟨0, 3, false⟩]⟩, blk 0]
        []]
    blocks := [cont (.lsp 4 ⟨some 1, 0, 3⟩ []) (.repl 4 (some 4) (.concat 1 [.lsp 1 ⟨some 0, 0, 0⟩ []]))] }

theorem concatA4ReplicateBDrives_ok : meets concatA4ReplicateBDrives [
    .path (chs "m.b") (chs "m.a") true, .atLeast (chs "m.a") 0 0 1, .atLeast (chs "m.a") 1 1 1,
    .atLeast (chs "m.a") 2 2 1, .atLeast (chs "m.a") 3 3 1] = true := by
  decide +kernel

/-- Concat: widening zero-ext leaves top bits driverless. tests/unit/ConcatTests.cpp:70-88. -/
def concatWideningZeroExtLeavesTop : Design' :=
  { sigs := [⟨chs "b", 4, true, chs "m.b"⟩, ⟨chs "a", 8, true, chs "m.a"⟩]
    tree := [.inst false (chs "m") (chs "m") [.port ⟨100, some 0, .input, [⟨0, 3, true⟩]⟩, .port ⟨101, some 1,
        .output, [⟨0, 7, false⟩]⟩, blk 0]
        []]
    blocks := [cont (.lsp 8 ⟨some 1, 0, 7⟩ []) (.conv 8 false none (.lsp 4 ⟨some 0, 0, 3⟩ []))] }

theorem concatWideningZeroExtLeavesTop_ok : meets concatWideningZeroExtLeavesTop [
    .atLeast (chs "m.a") 0 0 1, .atLeast (chs "m.a") 1 1 1, .atLeast (chs "m.a") 2 2 1, .atLeast (chs "m.a") 3 3 1,
    .named (chs "m.a") 4 4 (chs "m.b") false, .named (chs "m.a") 5 5 (chs "m.b") false,
    .named (chs "m.a") 6 6 (chs "m.b") false, .named (chs "m.a") 7 7 (chs "m.b") false] = true := by
  decide +kernel

/-- Concat: widening sign-ext leaves top bits driverless. tests/unit/ConcatTests.cpp:90-110. -/
def concatWideningSignExtLeavesTop : Design' :=
  { sigs := [⟨chs "b", 4, true, chs "m.b"⟩, ⟨chs "a", 8, true, chs "m.a"⟩]
    tree := [.inst false (chs "m") (chs "m") [.port ⟨100, some 0, .input, [⟨0, 3, true⟩]⟩, .port ⟨101, some 1,
        .output, [⟨0, 7, false⟩]⟩, blk 0]
        []]
    blocks := [cont (.lsp 8 ⟨some 1, 0, 7⟩ []) (.conv 8 true none (.lsp 4 ⟨some 0, 0, 3⟩ []))] }

theorem concatWideningSignExtLeavesTop_ok : meets concatWideningSignExtLeavesTop [
    .atLeast (chs "m.a") 0 0 1, .atLeast (chs "m.a") 1 1 1, .atLeast (chs "m.a") 2 2 1, .atLeast (chs "m.a") 3 3 1,
    .named (chs "m.a") 4 4 (chs "m.b") false, .named (chs "m.a") 5 5 (chs "m.b") false,
    .named (chs "m.a") 6 6 (chs "m.b") false, .named (chs "m.a") 7 7 (chs "m.b") false] = true := by
  decide +kernel

/-- Concat: narrowing conversion inside concat stays opaque. tests/unit/ConcatTests.cpp:117-133. -/
def concatNarrowingConversionInsideConcatStays : Design' :=
  { sigs := [⟨chs "x", 8, true, chs "m.x"⟩, ⟨chs "y", 1, true, chs "m.y"⟩, ⟨chs "a", 5, true, chs "m.a"⟩]
    tree := [.inst false (chs "m") (chs "m") [.port ⟨100, some 0, .input, [⟨0, 7, true⟩]⟩, .port ⟨101, some 1,
        .input, [⟨0, 0, true⟩]⟩, .port ⟨102, some 2, .output, [⟨0, 4, false⟩]⟩, blk 0]
        []]
    blocks := [cont (.lsp 5 ⟨some 2, 0, 4⟩ []) (.concat 5 [.lsp 1 ⟨some 1, 0, 0⟩ [],
        .conv 4 false none (.lsp 8 ⟨some 0, 0, 7⟩ [])])] }

theorem concatNarrowingConversionInsideConcatStays_ok : meets concatNarrowingConversionInsideConcatStays [
    .path (chs "m.y") (chs "m.a") true, .path (chs "m.x") (chs "m.a") true, .atLeast (chs "m.a") 4 4 1,
    .atLeast (chs "m.a") 0 0 1] = true := by
  decide +kernel

/-- Concat: opaque arithmetic a = b + c drives every bit of a. tests/unit/ConcatTests.cpp:135-151. -/
def concatOpaqueArithmeticABC : Design' :=
  { sigs := [⟨chs "b", 4, true, chs "m.b"⟩, ⟨chs "c", 4, true, chs "m.c"⟩, ⟨chs "a", 4, true, chs "m.a"⟩]
    tree := [.inst false (chs "m") (chs "m") [.port ⟨100, some 0, .input, [⟨0, 3, true⟩]⟩, .port ⟨101, some 1,
        .input, [⟨0, 3, true⟩]⟩, .port ⟨102, some 2, .output, [⟨0, 3, false⟩]⟩, blk 0]
        []]
    blocks := [cont (.lsp 4 ⟨some 2, 0, 3⟩ []) (.other 4 none [⟨some 0, 0, 3⟩, ⟨some 1, 0, 3⟩])] }

theorem concatOpaqueArithmeticABC_ok : meets concatOpaqueArithmeticABC [
    .path (chs "m.b") (chs "m.a") true, .path (chs "m.c") (chs "m.a") true, .atLeast (chs "m.a") 0 0 1,
    .atLeast (chs "m.a") 1 1 1, .atLeast (chs "m.a") 2 2 1, .atLeast (chs "m.a") 3 3 1] = true := by
  decide +kernel

/-- Concat: conditional op unions per-bit sources. tests/unit/ConcatTests.cpp:153-174. -/
def concatConditionalOpUnionsPerBit : Design' :=
  { sigs := [⟨chs "sel", 1, true, chs "m.sel"⟩, ⟨chs "c", 1, true, chs "m.c"⟩, ⟨chs "d", 1, true, chs "m.d"⟩,
      ⟨chs "e", 1, true, chs "m.e"⟩, ⟨chs "f", 1, true, chs "m.f"⟩, ⟨chs "a", 1, true, chs "m.a"⟩, ⟨chs "b", 1,
      true, chs "m.b"⟩]
    tree := [.inst false (chs "m") (chs "m") [.port ⟨100, some 0, .input, [⟨0, 0, true⟩]⟩, .port ⟨101, some 1,
        .input, [⟨0, 0, true⟩]⟩, .port ⟨102, some 2, .input, [⟨0, 0, true⟩]⟩, .port ⟨103, some 3, .input, [⟨0, 0,
        true⟩]⟩, .port ⟨104, some 4, .input, [⟨0, 0, true⟩]⟩, .port ⟨105, some 5, .output, [⟨0, 0, false⟩]⟩,
        .port ⟨106, some 6, .output, [⟨0, 0, false⟩]⟩, blk 0]
        []]
    blocks := [cont (.concat 2 [.lsp 1 ⟨some 5, 0, 0⟩ [], .lsp 1 ⟨some 6, 0,
        0⟩ []]) (.condOp 2 1 false [] (.lsp 1 ⟨some 0, 0, 0⟩ []) (.concat 2 [.lsp 1 ⟨some 1, 0, 0⟩ [],
        .lsp 1 ⟨some 2, 0, 0⟩ []]) (.concat 2 [.lsp 1 ⟨some 3, 0, 0⟩ [], .lsp 1 ⟨some 4, 0, 0⟩ []]))] }

theorem concatConditionalOpUnionsPerBit_ok : meets concatConditionalOpUnionsPerBit [
    .path (chs "m.c") (chs "m.a") true, .path (chs "m.e") (chs "m.a") true, .path (chs "m.d") (chs "m.b") true,
    .path (chs "m.f") (chs "m.b") true, .path (chs "m.c") (chs "m.b") false, .path (chs "m.e") (chs "m.b") false,
    .path (chs "m.d") (chs "m.a") false, .path (chs "m.f") (chs "m.a") false, .path (chs "m.sel") (chs "m.a") true,
    .path (chs "m.sel") (chs "m.b") true] = true := by
  decide +kernel

/-- Concat: conditional op unions across mismatched arm shapes. tests/unit/ConcatTests.cpp:176-193. -/
def concatConditionalOpUnionsAcrossMismatched : Design' :=
  { sigs := [⟨chs "sel", 1, true, chs "m.sel"⟩, ⟨chs "c", 1, true, chs "m.c"⟩, ⟨chs "d", 1, true, chs "m.d"⟩,
      ⟨chs "e", 2, true, chs "m.e"⟩, ⟨chs "a", 2, true, chs "m.a"⟩]
    tree := [.inst false (chs "m") (chs "m") [.port ⟨100, some 0, .input, [⟨0, 0, true⟩]⟩, .port ⟨101, some 1,
        .input, [⟨0, 0, true⟩]⟩, .port ⟨102, some 2, .input, [⟨0, 0, true⟩]⟩, .port ⟨103, some 3, .input, [⟨0, 1,
        true⟩]⟩, .port ⟨104, some 4, .output, [⟨0, 1, false⟩]⟩, blk 0]
        []]
    blocks := [cont (.lsp 2 ⟨some 4, 0, 1⟩ []) (.condOp 2 1 false [] (.lsp 1 ⟨some 0, 0,
        0⟩ []) (.concat 2 [.lsp 1 ⟨some 1, 0, 0⟩ [], .lsp 1 ⟨some 2, 0, 0⟩ []]) (.lsp 2 ⟨some 3, 0, 1⟩ []))] }

theorem concatConditionalOpUnionsAcrossMismatched_ok : meets concatConditionalOpUnionsAcrossMismatched [
    .path (chs "m.c") (chs "m.a") true, .path (chs "m.d") (chs "m.a") true, .path (chs "m.e") (chs "m.a") true,
    .path (chs "m.sel") (chs "m.a") true, .atLeast (chs "m.a") 1 1 1, .atLeast (chs "m.a") 0 0 1] = true := by
  decide +kernel

/-- Concat: nonblocking {a,b} <= {c,d} has no cross edges. tests/unit/ConcatTests.cpp:195-208. -/
def concatNonblockingABCD : Design' :=
  { sigs := [⟨chs "clk", 1, true, chs "m.clk"⟩, ⟨chs "c", 1, true, chs "m.c"⟩, ⟨chs "d", 1, true, chs "m.d"⟩,
      ⟨chs "a", 1, true, chs "m.a"⟩, ⟨chs "b", 1, true, chs "m.b"⟩]
    tree := [.inst false (chs "m") (chs "m") [.port ⟨100, some 0, .input, [⟨0, 0, true⟩]⟩, .port ⟨101, some 1,
        .input, [⟨0, 0, true⟩]⟩, .port ⟨102, some 2, .input, [⟨0, 0, true⟩]⟩, .port ⟨103, some 3, .output, [⟨0, 0,
        false⟩]⟩, .port ⟨104, some 4, .output, [⟨0, 0, false⟩]⟩, blk 0]
        []]
    blocks := [.procedural .alwaysFF (.timed (.signalEvent ⟨.posEdge, some 0⟩)) (nba (.concat 2 [.lsp 1 ⟨some 3, 0,
        0⟩ [], .lsp 1 ⟨some 4, 0, 0⟩ []]) (.concat 2 [.lsp 1 ⟨some 1, 0, 0⟩ [], .lsp 1 ⟨some 2, 0, 0⟩ []]))] }

theorem concatNonblockingABCD_ok : meets concatNonblockingABCD [
    .path (chs "m.c") (chs "m.a") true, .path (chs "m.d") (chs "m.b") true, .path (chs "m.c") (chs "m.b") false,
    .path (chs "m.d") (chs "m.a") false] = true := by
  decide +kernel

/-- Concat: nested concat has three independent segments. tests/unit/ConcatTests.cpp:210-228. -/
def concatNestedConcatHasThreeIndependent : Design' :=
  { sigs := [⟨chs "d", 1, true, chs "m.d"⟩, ⟨chs "e", 1, true, chs "m.e"⟩, ⟨chs "f", 1, true, chs "m.f"⟩, ⟨chs "a",
      1, true, chs "m.a"⟩, ⟨chs "b", 1, true, chs "m.b"⟩, ⟨chs "c", 1, true, chs "m.c"⟩]
    tree := [.inst false (chs "m") (chs "m") [.port ⟨100, some 0, .input, [⟨0, 0, true⟩]⟩, .port ⟨101, some 1,
        .input, [⟨0, 0, true⟩]⟩, .port ⟨102, some 2, .input, [⟨0, 0, true⟩]⟩, .port ⟨103, some 3, .output, [⟨0, 0,
        false⟩]⟩, .port ⟨104, some 4, .output, [⟨0, 0, false⟩]⟩, .port ⟨105, some 5, .output, [⟨0, 0, false⟩]⟩, blk 0]
        []]
    blocks := [cont (.concat 3 [.lsp 1 ⟨some 3, 0, 0⟩ [], .concat 2 [.lsp 1 ⟨some 4, 0, 0⟩ [], .lsp 1 ⟨some 5, 0,
        0⟩ []]]) (.concat 3 [.lsp 1 ⟨some 0, 0, 0⟩ [], .concat 2 [.lsp 1 ⟨some 1, 0, 0⟩ [], .lsp 1 ⟨some 2, 0,
        0⟩ []]])] }

theorem concatNestedConcatHasThreeIndependent_ok : meets concatNestedConcatHasThreeIndependent [
    .path (chs "m.d") (chs "m.a") true, .path (chs "m.e") (chs "m.b") true, .path (chs "m.f") (chs "m.c") true,
    .path (chs "m.d") (chs "m.b") false, .path (chs "m.d") (chs "m.c") false, .path (chs "m.e") (chs "m.a") false,
    .path (chs "m.e") (chs "m.c") false, .path (chs "m.f") (chs "m.a") false,
        .path (chs "m.f") (chs "m.b") false] = true := by
  decide +kernel

/-- Concat: getDrivers bit-range query returns matching segment. tests/unit/ConcatTests.cpp:230-246. -/
def concatGetdriversBitRangeQueryReturns : Design' :=
  { sigs := [⟨chs "c", 1, true, chs "m.c"⟩, ⟨chs "d", 1, true, chs "m.d"⟩, ⟨chs "a", 1, true, chs "m.a"⟩, ⟨chs "b",
      1, true, chs "m.b"⟩]
    tree := [.inst false (chs "m") (chs "m") [.port ⟨100, some 0, .input, [⟨0, 0, true⟩]⟩, .port ⟨101, some 1,
        .input, [⟨0, 0, true⟩]⟩, .port ⟨102, some 2, .output, [⟨0, 0, false⟩]⟩, .port ⟨103, some 3, .output, [⟨0,
        0, false⟩]⟩, blk 0]
        []]
    blocks := [cont (.concat 2 [.lsp 1 ⟨some 2, 0, 0⟩ [], .lsp 1 ⟨some 3, 0, 0⟩ []]) (.concat 2 [.lsp 1 ⟨some 0, 0,
        0⟩ [], .lsp 1 ⟨some 1, 0, 0⟩ []])] }

theorem concatGetdriversBitRangeQueryReturns_ok : meets concatGetdriversBitRangeQueryReturns [
    .atLeast (chs "m.a") 0 0 1, .atLeast (chs "m.b") 0 0 1, .distinct (chs "m.a") 0 0 (chs "m.b") 0 0] = true := by
  decide +kernel

/-- Concat: port connections with concats on both sides. tests/unit/ConcatTests.cpp:248-269. -/
def concatPortConnectionsWithConcatsOn : Design' :=
  { sigs := [⟨chs "a", 1, true, chs "m.a"⟩, ⟨chs "b", 1, true, chs "m.b"⟩, ⟨chs "c", 1, true, chs "m.c"⟩, ⟨chs "d",
      1, true, chs "m.d"⟩, ⟨chs "x", 2, true, chs "m.ux.x"⟩, ⟨chs "y", 2, true, chs "m.ux.y"⟩]
    tree := [.inst false (chs "m") (chs "m") [.port ⟨100, some 0, .input, [⟨0, 0, true⟩]⟩, .port ⟨101, some 1,
        .input, [⟨0, 0, true⟩]⟩, .port ⟨102, some 2, .output, [⟨0, 0, false⟩]⟩, .port ⟨103, some 3, .output, [⟨0,
        0, false⟩]⟩, .inst false (chs "x") (chs "m.ux") [.port ⟨104, some 4, .input, [⟨0, 1, true⟩]⟩, .port ⟨105,
        some 5, .output, [⟨0, 1, false⟩]⟩, blk 0]
        [⟨.port 104 (some 4), some (.concat 2 [.lsp 1 ⟨some 1, 0, 0⟩ [], .lsp 1 ⟨some 0, 0, 0⟩ []]), false, true⟩,
         ⟨.port 105 (some 5), some (.concat 2 [.lsp 1 ⟨some 3, 0, 0⟩ [], .lsp 1 ⟨some 2, 0, 0⟩ []]), true, true⟩]]
        []]
    blocks := [cont (.lsp 2 ⟨some 5, 0, 1⟩ []) (.lsp 2 ⟨some 4, 0, 1⟩ [])] }

theorem concatPortConnectionsWithConcatsOn_ok : meets concatPortConnectionsWithConcatsOn [
    .path (chs "m.a") (chs "m.c") true, .path (chs "m.b") (chs "m.d") true, .path (chs "m.a") (chs "m.d") false,
    .path (chs "m.b") (chs "m.c") false] = true := by
  decide +kernel

/-- Concat: two-level hierarchical cut propagation. tests/unit/ConcatTests.cpp:274-291. -/
def concatTwoLevelHierarchicalCutPropagation : Design' :=
  { sigs := [⟨chs "a", 1, true, chs "top.a"⟩, ⟨chs "b", 1, true, chs "top.b"⟩, ⟨chs "c", 1, true, chs "top.c"⟩,
      ⟨chs "d", 1, true, chs "top.d"⟩, ⟨chs "mi", 2, true, chs "top.u.mi"⟩, ⟨chs "mo", 2, true, chs "top.u.mo"⟩,
      ⟨chs "i", 2, true, chs "top.u.u.i"⟩, ⟨chs "o", 2, true, chs "top.u.u.o"⟩]
    tree := [.inst false (chs "top") (chs "top") [.port ⟨100, some 0, .input, [⟨0, 0, true⟩]⟩, .port ⟨101, some 1,
        .input, [⟨0, 0, true⟩]⟩, .port ⟨102, some 2, .output, [⟨0, 0, false⟩]⟩, .port ⟨103, some 3, .output, [⟨0,
        0, false⟩]⟩, .inst false (chs "mid") (chs "top.u") [.port ⟨104, some 4, .input, [⟨0, 1, true⟩]⟩,
        .port ⟨105, some 5, .output, [⟨0, 1, false⟩]⟩, .inst false (chs "inner") (chs "top.u.u") [.port ⟨106,
        some 6, .input, [⟨0, 1, true⟩]⟩, .port ⟨107, some 7, .output, [⟨0, 1, false⟩]⟩, blk 0]
        [⟨.port 106 (some 6), some (.lsp 2 ⟨some 4, 0, 1⟩ []), false, true⟩,
         ⟨.port 107 (some 7), some (.lsp 2 ⟨some 5, 0, 1⟩ []), true, true⟩]]
        [⟨.port 104 (some 4), some (.concat 2 [.lsp 1 ⟨some 1, 0, 0⟩ [], .lsp 1 ⟨some 0, 0, 0⟩ []]), false, true⟩,
         ⟨.port 105 (some 5), some (.concat 2 [.lsp 1 ⟨some 3, 0, 0⟩ [], .lsp 1 ⟨some 2, 0, 0⟩ []]), true, true⟩]]
        []]
    blocks := [cont (.lsp 2 ⟨some 7, 0, 1⟩ []) (.lsp 2 ⟨some 6, 0, 1⟩ [])] }

theorem concatTwoLevelHierarchicalCutPropagation_ok : meets concatTwoLevelHierarchicalCutPropagation [
    .path (chs "top.a") (chs "top.c") true, .path (chs "top.b") (chs "top.d") true] = true := by
  decide +kernel

/-- Concat: wide port with single cut stays bounded. tests/unit/ConcatTests.cpp:295-309. -/
def concatWidePortWithSingleCut : Design' :=
  { sigs := [⟨chs "top_bit", 1, true, chs "m.top_bit"⟩, ⟨chs "rest", 7, true, chs "m.rest"⟩, ⟨chs "r", 8, true,
      chs "m.r"⟩, ⟨chs "i", 8, true, chs "m.u.i"⟩, ⟨chs "o", 8, true, chs "m.u.o"⟩]
    tree := [.inst false (chs "m") (chs "m") [.port ⟨100, some 0, .input, [⟨0, 0, true⟩]⟩, .port ⟨101, some 1,
        .input, [⟨0, 6, true⟩]⟩, .port ⟨102, some 2, .output, [⟨0, 7, false⟩]⟩,
        .inst false (chs "sub") (chs "m.u") [.port ⟨103, some 3, .input, [⟨0, 7, true⟩]⟩, .port ⟨104, some 4,
        .output, [⟨0, 7, false⟩]⟩, blk 0]
        [⟨.port 103 (some 3), some (.concat 8 [.lsp 1 ⟨some 0, 0, 0⟩ [], .lsp 7 ⟨some 1, 0, 6⟩ []]), false, true⟩,
         ⟨.port 104 (some 4), some (.lsp 8 ⟨some 2, 0, 7⟩ []), true, true⟩]]
        []]
    blocks := [cont (.lsp 8 ⟨some 4, 0, 7⟩ []) (.lsp 8 ⟨some 3, 0, 7⟩ [])] }

theorem concatWidePortWithSingleCut_ok : meets concatWidePortWithSingleCut [
    .path (chs "m.top_bit") (chs "m.r") true, .path (chs "m.rest") (chs "m.r") true] = true := by
  decide +kernel

/-- Concat: cuts honoured inside always_ff. tests/unit/ConcatTests.cpp:313-328. -/
def concatCutsHonouredInsideAlwaysFf : Design' :=
  { sigs := [⟨chs "clk", 1, true, chs "m.clk"⟩, ⟨chs "a", 1, true, chs "m.a"⟩, ⟨chs "b", 1, true, chs "m.b"⟩,
      ⟨chs "c", 1, true, chs "m.c"⟩, ⟨chs "d", 1, true, chs "m.d"⟩, ⟨chs "clk", 1, true, chs "m.u.clk"⟩, ⟨chs "i",
      2, true, chs "m.u.i"⟩, ⟨chs "o", 2, true, chs "m.u.o"⟩]
    tree := [.inst false (chs "m") (chs "m") [.port ⟨100, some 0, .input, [⟨0, 0, true⟩]⟩, .port ⟨101, some 1,
        .input, [⟨0, 0, true⟩]⟩, .port ⟨102, some 2, .input, [⟨0, 0, true⟩]⟩, .port ⟨103, some 3, .output, [⟨0, 0,
        false⟩]⟩, .port ⟨104, some 4, .output, [⟨0, 0, false⟩]⟩, .inst false (chs "sub") (chs "m.u") [.port ⟨105,
        some 5, .input, [⟨0, 0, true⟩]⟩, .port ⟨106, some 6, .input, [⟨0, 1, true⟩]⟩, .port ⟨107, some 7, .output,
        [⟨0, 1, false⟩]⟩, blk 0]
        [⟨.port 105 (some 5), some (.lsp 1 ⟨some 0, 0, 0⟩ []), false, true⟩,
         ⟨.port 106 (some 6), some (.concat 2 [.lsp 1 ⟨some 2, 0, 0⟩ [], .lsp 1 ⟨some 1, 0, 0⟩ []]), false, true⟩,
         ⟨.port 107 (some 7), some (.concat 2 [.lsp 1 ⟨some 4, 0, 0⟩ [], .lsp 1 ⟨some 3, 0, 0⟩ []]), true, true⟩]]
        []]
    blocks := [.procedural .alwaysFF (.timed (.signalEvent ⟨.posEdge, some 5⟩)) (nba (.lsp 2 ⟨some 7, 0,
        1⟩ []) (.lsp 2 ⟨some 6, 0, 1⟩ []))] }

theorem concatCutsHonouredInsideAlwaysFf_ok : meets concatCutsHonouredInsideAlwaysFf [
    .path (chs "m.a") (chs "m.c") true, .path (chs "m.b") (chs "m.d") true, .path (chs "m.a") (chs "m.d") false,
    .path (chs "m.b") (chs "m.c") false] = true := by
  decide +kernel

/-- Concat: nested concat resolves cuts recursively. tests/unit/ConcatTests.cpp:332-352. -/
def concatNestedConcatResolvesCutsRecursively : Design' :=
  { sigs := [⟨chs "a", 1, true, chs "m.a"⟩, ⟨chs "b", 1, true, chs "m.b"⟩, ⟨chs "c", 1, true, chs "m.c"⟩, ⟨chs "x",
      1, true, chs "m.x"⟩, ⟨chs "y", 1, true, chs "m.y"⟩, ⟨chs "z", 1, true, chs "m.z"⟩, ⟨chs "i", 3, true,
      chs "m.u.i"⟩, ⟨chs "o", 3, true, chs "m.u.o"⟩]
    tree := [.inst false (chs "m") (chs "m") [.port ⟨100, some 0, .input, [⟨0, 0, true⟩]⟩, .port ⟨101, some 1,
        .input, [⟨0, 0, true⟩]⟩, .port ⟨102, some 2, .input, [⟨0, 0, true⟩]⟩, .port ⟨103, some 3, .output, [⟨0, 0,
        false⟩]⟩, .port ⟨104, some 4, .output, [⟨0, 0, false⟩]⟩, .port ⟨105, some 5, .output, [⟨0, 0, false⟩]⟩,
        .inst false (chs "sub") (chs "m.u") [.port ⟨106, some 6, .input, [⟨0, 2, true⟩]⟩, .port ⟨107, some 7,
        .output, [⟨0, 2, false⟩]⟩, blk 0]
        [⟨.port 106 (some 6), some (.concat 3 [.lsp 1 ⟨some 2, 0, 0⟩ [], .concat 2 [.lsp 1 ⟨some 1, 0, 0⟩ [],
            .lsp 1 ⟨some 0, 0, 0⟩ []]]), false, true⟩,
         ⟨.port 107 (some 7), some (.concat 3 [.lsp 1 ⟨some 5, 0, 0⟩ [], .concat 2 [.lsp 1 ⟨some 4, 0, 0⟩ [],
             .lsp 1 ⟨some 3, 0, 0⟩ []]]), true, true⟩]]
        []]
    blocks := [cont (.lsp 3 ⟨some 7, 0, 2⟩ []) (.lsp 3 ⟨some 6, 0, 2⟩ [])] }

theorem concatNestedConcatResolvesCutsRecursively_ok : meets concatNestedConcatResolvesCutsRecursively [
    .path (chs "m.a") (chs "m.x") true, .path (chs "m.b") (chs "m.y") true, .path (chs "m.c") (chs "m.z") true,
    .path (chs "m.a") (chs "m.y") false, .path (chs "m.a") (chs "m.z") false, .path (chs "m.b") (chs "m.x") false,
    .path (chs "m.b") (chs "m.z") false, .path (chs "m.c") (chs "m.x") false,
        .path (chs "m.c") (chs "m.y") false] = true := by
  decide +kernel

/-- Concat: cut hints unioned from multi-element concat. tests/unit/ConcatTests.cpp:357-384. -/
def concatCutHintsUnionedFromMulti : Design' :=
  { sigs := [⟨chs "a", 1, true, chs "m.a"⟩, ⟨chs "b", 1, true, chs "m.b"⟩, ⟨chs "c", 1, true, chs "m.c"⟩, ⟨chs "d",
      1, true, chs "m.d"⟩, ⟨chs "w", 1, true, chs "m.w"⟩, ⟨chs "x", 1, true, chs "m.x"⟩, ⟨chs "y", 1, true,
      chs "m.y"⟩, ⟨chs "z", 1, true, chs "m.z"⟩, ⟨chs "i", 4, true, chs "m.u.i"⟩, ⟨chs "o", 4, true, chs "m.u.o"⟩]
    tree := [.inst false (chs "m") (chs "m") [.port ⟨100, some 0, .input, [⟨0, 0, true⟩]⟩, .port ⟨101, some 1,
        .input, [⟨0, 0, true⟩]⟩, .port ⟨102, some 2, .input, [⟨0, 0, true⟩]⟩, .port ⟨103, some 3, .input, [⟨0, 0,
        true⟩]⟩, .port ⟨104, some 4, .output, [⟨0, 0, false⟩]⟩, .port ⟨105, some 5, .output, [⟨0, 0, false⟩]⟩,
        .port ⟨106, some 6, .output, [⟨0, 0, false⟩]⟩, .port ⟨107, some 7, .output, [⟨0, 0, false⟩]⟩,
        .inst false (chs "sub") (chs "m.u") [.port ⟨108, some 8, .input, [⟨0, 3, true⟩]⟩, .port ⟨109, some 9,
        .output, [⟨0, 3, false⟩]⟩, blk 0]
        [⟨.port 108 (some 8), some (.concat 4 [.lsp 1 ⟨some 3, 0, 0⟩ [], .lsp 1 ⟨some 2, 0, 0⟩ [], .lsp 1 ⟨some 1,
            0, 0⟩ [], .lsp 1 ⟨some 0, 0, 0⟩ []]), false, true⟩,
         ⟨.port 109 (some 9), some (.concat 4 [.lsp 1 ⟨some 7, 0, 0⟩ [], .lsp 1 ⟨some 6, 0, 0⟩ [], .lsp 1 ⟨some 5,
             0, 0⟩ [], .lsp 1 ⟨some 4, 0, 0⟩ []]), true, true⟩]]
        []]
    blocks := [cont (.lsp 4 ⟨some 9, 0, 3⟩ []) (.lsp 4 ⟨some 8, 0, 3⟩ [])] }

theorem concatCutHintsUnionedFromMulti_ok : meets concatCutHintsUnionedFromMulti [
    .path (chs "m.a") (chs "m.w") true, .path (chs "m.b") (chs "m.x") true, .path (chs "m.c") (chs "m.y") true,
    .path (chs "m.d") (chs "m.z") true, .path (chs "m.a") (chs "m.x") false, .path (chs "m.a") (chs "m.y") false,
    .path (chs "m.a") (chs "m.z") false, .path (chs "m.b") (chs "m.w") false, .path (chs "m.b") (chs "m.y") false,
    .path (chs "m.b") (chs "m.z") false, .path (chs "m.c") (chs "m.w") false, .path (chs "m.c") (chs "m.x") false,
    .path (chs "m.c") (chs "m.z") false, .path (chs "m.d") (chs "m.w") false, .path (chs "m.d") (chs "m.x") false,
    .path (chs "m.d") (chs "m.y") false] = true := by
  decide +kernel

/-- Concat: two instances with different concats. tests/unit/ConcatTests.cpp:391-413. -/
def concatTwoInstancesWithDifferentConcats : Design' :=
  { sigs := [⟨chs "a", 1, true, chs "m.a"⟩, ⟨chs "b", 1, true, chs "m.b"⟩, ⟨chs "e", 1, true, chs "m.e"⟩, ⟨chs "f",
      1, true, chs "m.f"⟩, ⟨chs "c", 1, true, chs "m.c"⟩, ⟨chs "d", 1, true, chs "m.d"⟩, ⟨chs "g", 1, true,
      chs "m.g"⟩, ⟨chs "h", 1, true, chs "m.h"⟩, ⟨chs "i", 2, true, chs "m.u1.i"⟩, ⟨chs "o", 2, true,
      chs "m.u1.o"⟩, ⟨chs "i", 2, true, chs "m.u2.i"⟩, ⟨chs "o", 2, true, chs "m.u2.o"⟩]
    tree := [.inst false (chs "m") (chs "m") [.port ⟨100, some 0, .input, [⟨0, 0, true⟩]⟩, .port ⟨101, some 1,
        .input, [⟨0, 0, true⟩]⟩, .port ⟨102, some 2, .input, [⟨0, 0, true⟩]⟩, .port ⟨103, some 3, .input, [⟨0, 0,
        true⟩]⟩, .port ⟨104, some 4, .output, [⟨0, 0, false⟩]⟩, .port ⟨105, some 5, .output, [⟨0, 0, false⟩]⟩,
        .port ⟨106, some 6, .output, [⟨0, 0, false⟩]⟩, .port ⟨107, some 7, .output, [⟨0, 0, false⟩]⟩,
        .inst false (chs "sub") (chs "m.u1") [.port ⟨108, some 8, .input, [⟨0, 1, true⟩]⟩, .port ⟨109, some 9,
        .output, [⟨0, 1, false⟩]⟩, blk 0]
        [⟨.port 108 (some 8), some (.concat 2 [.lsp 1 ⟨some 1, 0, 0⟩ [], .lsp 1 ⟨some 0, 0, 0⟩ []]), false, true⟩,
         ⟨.port 109 (some 9), some (.concat 2 [.lsp 1 ⟨some 5, 0, 0⟩ [], .lsp 1 ⟨some 4, 0, 0⟩ []]), true, true⟩],
             .inst false (chs "sub") (chs "m.u2") [.port ⟨110, some 10, .input, [⟨0, 1, true⟩]⟩, .port ⟨111,
             some 11, .output, [⟨0, 1, false⟩]⟩, blk 1]
        [⟨.port 110 (some 10), some (.concat 2 [.lsp 1 ⟨some 3, 0, 0⟩ [], .lsp 1 ⟨some 2, 0, 0⟩ []]), false, true⟩,
         ⟨.port 111 (some 11), some (.concat 2 [.lsp 1 ⟨some 7, 0, 0⟩ [], .lsp 1 ⟨some 6, 0, 0⟩ []]), true, true⟩]]
        []]
    blocks := [cont (.lsp 2 ⟨some 9, 0, 1⟩ []) (.lsp 2 ⟨some 8, 0, 1⟩ []),
      cont (.lsp 2 ⟨some 11, 0, 1⟩ []) (.lsp 2 ⟨some 10, 0, 1⟩ [])] }

theorem concatTwoInstancesWithDifferentConcats_ok : meets concatTwoInstancesWithDifferentConcats [
    .path (chs "m.a") (chs "m.c") true, .path (chs "m.b") (chs "m.d") true, .path (chs "m.a") (chs "m.d") false,
    .path (chs "m.b") (chs "m.c") false, .path (chs "m.e") (chs "m.g") true, .path (chs "m.f") (chs "m.h") true,
    .path (chs "m.e") (chs "m.h") false, .path (chs "m.f") (chs "m.g") false] = true := by
  decide +kernel

/-- Concat: non-concat actual leaves port whole-word. tests/unit/ConcatTests.cpp:417-429. -/
def concatNonConcatActualLeavesPort : Design' :=
  { sigs := [⟨chs "x", 2, true, chs "m.x"⟩, ⟨chs "y", 2, true, chs "m.y"⟩, ⟨chs "i", 2, true, chs "m.u.i"⟩,
      ⟨chs "o", 2, true, chs "m.u.o"⟩]
    tree := [.inst false (chs "m") (chs "m") [.port ⟨100, some 0, .input, [⟨0, 1, true⟩]⟩, .port ⟨101, some 1,
        .output, [⟨0, 1, false⟩]⟩, .inst false (chs "sub") (chs "m.u") [.port ⟨102, some 2, .input, [⟨0, 1,
        true⟩]⟩, .port ⟨103, some 3, .output, [⟨0, 1, false⟩]⟩, blk 0]
        [⟨.port 102 (some 2), some (.lsp 2 ⟨some 0, 0, 1⟩ []), false, true⟩,
         ⟨.port 103 (some 3), some (.lsp 2 ⟨some 1, 0, 1⟩ []), true, true⟩]]
        []]
    blocks := [cont (.lsp 2 ⟨some 3, 0, 1⟩ []) (.lsp 2 ⟨some 2, 0, 1⟩ [])] }

theorem concatNonConcatActualLeavesPort_ok : meets concatNonConcatActualLeavesPort [
    .path (chs "m.x") (chs "m.y") true] = true := by
  decide +kernel

/-- Concat: cut propagation disabled keeps legacy semantics. tests/unit/ConcatTests.cpp:433-455. -/
def concatCutPropagationDisabledKeepsLegacy : Design' :=
  { opts := { propCuts := false }
    sigs := [⟨chs "a", 1, true, chs "m.a"⟩, ⟨chs "b", 1, true, chs "m.b"⟩, ⟨chs "c", 1, true, chs "m.c"⟩, ⟨chs "d",
        1, true, chs "m.d"⟩, ⟨chs "x", 2, true, chs "m.ux.x"⟩, ⟨chs "y", 2, true, chs "m.ux.y"⟩]
    tree := [.inst false (chs "m") (chs "m") [.port ⟨100, some 0, .input, [⟨0, 0, true⟩]⟩, .port ⟨101, some 1,
        .input, [⟨0, 0, true⟩]⟩, .port ⟨102, some 2, .output, [⟨0, 0, false⟩]⟩, .port ⟨103, some 3, .output, [⟨0,
        0, false⟩]⟩, .inst false (chs "x") (chs "m.ux") [.port ⟨104, some 4, .input, [⟨0, 1, true⟩]⟩, .port ⟨105,
        some 5, .output, [⟨0, 1, false⟩]⟩, blk 0]
        [⟨.port 104 (some 4), some (.concat 2 [.lsp 1 ⟨some 1, 0, 0⟩ [], .lsp 1 ⟨some 0, 0, 0⟩ []]), false, true⟩,
         ⟨.port 105 (some 5), some (.concat 2 [.lsp 1 ⟨some 3, 0, 0⟩ [], .lsp 1 ⟨some 2, 0, 0⟩ []]), true, true⟩]]
        []]
    blocks := [cont (.lsp 2 ⟨some 5, 0, 1⟩ []) (.lsp 2 ⟨some 4, 0, 1⟩ [])] }

theorem concatCutPropagationDisabledKeepsLegacy_ok : meets concatCutPropagationDisabledKeepsLegacy [
    .path (chs "m.a") (chs "m.c") true, .path (chs "m.b") (chs "m.d") true, .path (chs "m.a") (chs "m.d") true,
    .path (chs "m.b") (chs "m.c") true] = true := by
  decide +kernel

/-- Concat: port connection sub u(.i({x,y})). tests/unit/ConcatTests.cpp:457-477. -/
def concatPortConnectionSubUI : Design' :=
  { sigs := [⟨chs "x", 2, true, chs "m.x"⟩, ⟨chs "y", 2, true, chs "m.y"⟩, ⟨chs "z", 4, true, chs "m.z"⟩,
      ⟨chs "mid", 4, false, chs "m.mid"⟩, ⟨chs "i", 4, true, chs "m.u.i"⟩, ⟨chs "o", 4, true, chs "m.u.o"⟩]
    tree := [.inst false (chs "m") (chs "m") [.port ⟨100, some 0, .input, [⟨0, 1, true⟩]⟩, .port ⟨101, some 1,
        .input, [⟨0, 1, true⟩]⟩, .port ⟨102, some 2, .output, [⟨0, 3, false⟩]⟩,
        .inst false (chs "sub") (chs "m.u") [.port ⟨104, some 4, .input, [⟨0, 3, true⟩]⟩, .port ⟨105, some 5,
        .output, [⟨0, 3, false⟩]⟩, blk 0]
        [⟨.port 104 (some 4), some (.concat 4 [.lsp 2 ⟨some 0, 0, 1⟩ [], .lsp 2 ⟨some 1, 0, 1⟩ []]), false, true⟩,
         ⟨.port 105 (some 5), some (.lsp 4 ⟨some 3, 0, 3⟩ []), true, true⟩], blk 1]
        []]
    blocks := [cont (.lsp 4 ⟨some 5, 0, 3⟩ []) (.lsp 4 ⟨some 4, 0, 3⟩ []),
      cont (.lsp 4 ⟨some 2, 0, 3⟩ []) (.lsp 4 ⟨some 3, 0, 3⟩ [])] }

theorem concatPortConnectionSubUI_ok : meets concatPortConnectionSubUI [
    .path (chs "m.x") (chs "m.z") true, .path (chs "m.y") (chs "m.z") true] = true := by
  decide +kernel

/-- Concat: dangling input port does not assert on width. tests/unit/ConcatTests.cpp:483-500. -/
def concatDanglingInputPortDoesNot : Design' :=
  { sigs := [⟨chs "ck", 1, true, chs "m.ck"⟩, ⟨chs "o", 1, true, chs "m.o"⟩, ⟨chs "clk_in", 1, true,
      chs "m.u.clk_in"⟩, ⟨chs "external_en", 1, true, chs "m.u.external_en"⟩, ⟨chs "clk_out", 1, true,
      chs "m.u.clk_out"⟩]
    tree := [.inst false (chs "m") (chs "m") [.port ⟨100, some 0, .input, [⟨0, 0, true⟩]⟩, .port ⟨101, some 1,
        .output, [⟨0, 0, false⟩]⟩, .inst false (chs "gated_clk_cell") (chs "m.u") [.port ⟨102, some 2, .input, [⟨0,
        0, true⟩]⟩, .port ⟨103, some 3, .input, [⟨0, 0, true⟩]⟩, .port ⟨104, some 4, .output, [⟨0, 0, false⟩]⟩, blk 0]
        [⟨.port 102 (some 2), some (.lsp 1 ⟨some 0, 0, 0⟩ []), false, true⟩,
         ⟨.port 103 (some 3), some (.other 1 (some [.zero]) []), false, true⟩,
         ⟨.port 104 (some 4), some (.lsp 1 ⟨some 1, 0, 0⟩ []), true, true⟩]]
        []]
    blocks := [cont (.lsp 1 ⟨some 4, 0, 0⟩ []) (.lsp 1 ⟨some 2, 0, 0⟩ [])] }

theorem concatDanglingInputPortDoesNot_ok : meets concatDanglingInputPortDoesNot [
    .path (chs "m.ck") (chs "m.o") true] = true := by
  decide +kernel

/-- Concat: port widening leaves upper bits driverless. tests/unit/ConcatTests.cpp:569-591. -/
def concatPortWideningLeavesUpperBits : Design' :=
  { sigs := [⟨chs "z", 4, true, chs "m.z"⟩, ⟨chs "r", 8, true, chs "m.r"⟩, ⟨chs "i", 8, true, chs "m.u.i"⟩,
      ⟨chs "o", 8, true, chs "m.u.o"⟩]
    tree := [.inst false (chs "m") (chs "m") [.port ⟨100, some 0, .input, [⟨0, 3, true⟩]⟩, .port ⟨101, some 1,
        .output, [⟨0, 7, false⟩]⟩, .inst false (chs "sub") (chs "m.u") [.port ⟨102, some 2, .input, [⟨0, 7,
        true⟩]⟩, .port ⟨103, some 3, .output, [⟨0, 7, false⟩]⟩, blk 0]
        [⟨.port 102 (some 2), some (.conv 8 false none (.lsp 4 ⟨some 0, 0, 3⟩ [])), false, true⟩,
         ⟨.port 103 (some 3), some (.lsp 8 ⟨some 1, 0, 7⟩ []), true, true⟩]]
        []]
    blocks := [cont (.lsp 8 ⟨some 3, 0, 7⟩ []) (.lsp 8 ⟨some 2, 0, 7⟩ [])] }

theorem concatPortWideningLeavesUpperBits_ok : meets concatPortWideningLeavesUpperBits [
    .atLeast (chs "m.u.i") 0 0 1, .atLeast (chs "m.u.i") 1 1 1, .atLeast (chs "m.u.i") 2 2 1,
    .atLeast (chs "m.u.i") 3 3 1, .named (chs "m.u.i") 4 4 (chs "m.z") false,
    .named (chs "m.u.i") 5 5 (chs "m.z") false, .named (chs "m.u.i") 6 6 (chs "m.z") false,
    .named (chs "m.u.i") 7 7 (chs "m.z") false] = true := by
  decide +kernel

/-- Concat: port connection to opaque expression fans all LSPs. tests/unit/ConcatTests.cpp:596-610. -/
def concatPortConnectionToOpaqueExpression : Design' :=
  { sigs := [⟨chs "a", 4, true, chs "m.a"⟩, ⟨chs "b", 4, true, chs "m.b"⟩, ⟨chs "r", 4, true, chs "m.r"⟩, ⟨chs "i",
      4, true, chs "m.u.i"⟩, ⟨chs "o", 4, true, chs "m.u.o"⟩]
    tree := [.inst false (chs "m") (chs "m") [.port ⟨100, some 0, .input, [⟨0, 3, true⟩]⟩, .port ⟨101, some 1,
        .input, [⟨0, 3, true⟩]⟩, .port ⟨102, some 2, .output, [⟨0, 3, false⟩]⟩,
        .inst false (chs "sub") (chs "m.u") [.port ⟨103, some 3, .input, [⟨0, 3, true⟩]⟩, .port ⟨104, some 4,
        .output, [⟨0, 3, false⟩]⟩, blk 0]
        [⟨.port 103 (some 3), some (.other 4 none [⟨some 0, 0, 3⟩, ⟨some 1, 0, 3⟩]), false, true⟩,
         ⟨.port 104 (some 4), some (.lsp 4 ⟨some 2, 0, 3⟩ []), true, true⟩]]
        []]
    blocks := [cont (.lsp 4 ⟨some 4, 0, 3⟩ []) (.lsp 4 ⟨some 3, 0, 3⟩ [])] }

theorem concatPortConnectionToOpaqueExpression_ok : meets concatPortConnectionToOpaqueExpression [
    .path (chs "m.a") (chs "m.r") true, .path (chs "m.b") (chs "m.r") true] = true := by
  decide +kernel

/-- Concat: chained ternaries route per bit. tests/unit/ConcatTests.cpp:669-679. -/
def concatChainedTernariesRoutePerBit : Design' :=
  { sigs := [⟨chs "s1", 1, true, chs "m.s1"⟩, ⟨chs "s2", 1, true, chs "m.s2"⟩, ⟨chs "a", 2, true, chs "m.a"⟩,
      ⟨chs "b", 2, true, chs "m.b"⟩, ⟨chs "c", 2, true, chs "m.c"⟩, ⟨chs "r", 2, true, chs "m.r"⟩]
    tree := [.inst false (chs "m") (chs "m") [.port ⟨100, some 0, .input, [⟨0, 0, true⟩]⟩, .port ⟨101, some 1,
        .input, [⟨0, 0, true⟩]⟩, .port ⟨102, some 2, .input, [⟨0, 1, true⟩]⟩, .port ⟨103, some 3, .input, [⟨0, 1,
        true⟩]⟩, .port ⟨104, some 4, .input, [⟨0, 1, true⟩]⟩, .port ⟨105, some 5, .output, [⟨0, 1, false⟩]⟩, blk 0]
        []]
    blocks := [cont (.lsp 2 ⟨some 5, 0, 1⟩ []) (.condOp 2 1 false [] (.lsp 1 ⟨some 0, 0, 0⟩ []) (.lsp 2 ⟨some 2, 0,
        1⟩ []) (.condOp 2 1 false [] (.lsp 1 ⟨some 1, 0, 0⟩ []) (.lsp 2 ⟨some 3, 0, 1⟩ []) (.lsp 2 ⟨some 4, 0,
        1⟩ [])))] }

theorem concatChainedTernariesRoutePerBit_ok : meets concatChainedTernariesRoutePerBit [
    .path (chs "m.s1") (chs "m.r") true, .path (chs "m.s2") (chs "m.r") true, .path (chs "m.a") (chs "m.r") true,
    .path (chs "m.b") (chs "m.r") true, .path (chs "m.c") (chs "m.r") true] = true := by
  decide +kernel

/-- Concat: chained ternaries with concat arms have no cross edges. tests/unit/ConcatTests.cpp:685-712. -/
def concatChainedTernariesWithConcatArms : Design' :=
  { sigs := [⟨chs "s1", 1, true, chs "m.s1"⟩, ⟨chs "s2", 1, true, chs "m.s2"⟩, ⟨chs "c", 1, true, chs "m.c"⟩,
      ⟨chs "d", 1, true, chs "m.d"⟩, ⟨chs "e", 1, true, chs "m.e"⟩, ⟨chs "f", 1, true, chs "m.f"⟩, ⟨chs "g", 1,
      true, chs "m.g"⟩, ⟨chs "h", 1, true, chs "m.h"⟩, ⟨chs "a", 1, true, chs "m.a"⟩, ⟨chs "b", 1, true, chs "m.b"⟩]
    tree := [.inst false (chs "m") (chs "m") [.port ⟨100, some 0, .input, [⟨0, 0, true⟩]⟩, .port ⟨101, some 1,
        .input, [⟨0, 0, true⟩]⟩, .port ⟨102, some 2, .input, [⟨0, 0, true⟩]⟩, .port ⟨103, some 3, .input, [⟨0, 0,
        true⟩]⟩, .port ⟨104, some 4, .input, [⟨0, 0, true⟩]⟩, .port ⟨105, some 5, .input, [⟨0, 0, true⟩]⟩,
        .port ⟨106, some 6, .input, [⟨0, 0, true⟩]⟩, .port ⟨107, some 7, .input, [⟨0, 0, true⟩]⟩, .port ⟨108,
        some 8, .output, [⟨0, 0, false⟩]⟩, .port ⟨109, some 9, .output, [⟨0, 0, false⟩]⟩, blk 0]
        []]
    blocks := [cont (.concat 2 [.lsp 1 ⟨some 8, 0, 0⟩ [], .lsp 1 ⟨some 9, 0,
        0⟩ []]) (.condOp 2 1 false [] (.lsp 1 ⟨some 0, 0, 0⟩ []) (.concat 2 [.lsp 1 ⟨some 2, 0, 0⟩ [],
        .lsp 1 ⟨some 3, 0, 0⟩ []]) (.condOp 2 1 false [] (.lsp 1 ⟨some 1, 0, 0⟩ []) (.concat 2 [.lsp 1 ⟨some 4, 0,
        0⟩ [], .lsp 1 ⟨some 5, 0, 0⟩ []]) (.concat 2 [.lsp 1 ⟨some 6, 0, 0⟩ [], .lsp 1 ⟨some 7, 0, 0⟩ []])))] }

theorem concatChainedTernariesWithConcatArms_ok : meets concatChainedTernariesWithConcatArms [
    .path (chs "m.s1") (chs "m.a") true, .path (chs "m.s1") (chs "m.b") true, .path (chs "m.s2") (chs "m.a") true,
    .path (chs "m.s2") (chs "m.b") true, .path (chs "m.c") (chs "m.a") true, .path (chs "m.e") (chs "m.a") true,
    .path (chs "m.g") (chs "m.a") true, .path (chs "m.d") (chs "m.b") true, .path (chs "m.f") (chs "m.b") true,
    .path (chs "m.h") (chs "m.b") true, .path (chs "m.c") (chs "m.b") false, .path (chs "m.e") (chs "m.b") false,
    .path (chs "m.g") (chs "m.b") false, .path (chs "m.d") (chs "m.a") false, .path (chs "m.f") (chs "m.a") false,
    .path (chs "m.h") (chs "m.a") false] = true := by
  decide +kernel

/-- Concat: replication of multi-bit operand inside concat. tests/unit/ConcatTests.cpp:716-728. -/
def concatReplicationOfMultiBitOperand : Design' :=
  { sigs := [⟨chs "x", 2, true, chs "m.x"⟩, ⟨chs "y", 1, true, chs "m.y"⟩, ⟨chs "r", 5, true, chs "m.r"⟩]
    tree := [.inst false (chs "m") (chs "m") [.port ⟨100, some 0, .input, [⟨0, 1, true⟩]⟩, .port ⟨101, some 1,
        .input, [⟨0, 0, true⟩]⟩, .port ⟨102, some 2, .output, [⟨0, 4, false⟩]⟩, blk 0]
        []]
    blocks := [cont (.lsp 5 ⟨some 2, 0, 4⟩ []) (.concat 5 [.lsp 1 ⟨some 1, 0, 0⟩ [],
        .repl 4 (some 2) (.concat 2 [.lsp 2 ⟨some 0, 0, 1⟩ []])])] }

theorem concatReplicationOfMultiBitOperand_ok : meets concatReplicationOfMultiBitOperand [
    .path (chs "m.x") (chs "m.r") true, .path (chs "m.y") (chs "m.r") true,
        .named (chs "m.r") 4 4 (chs "m.x") false] = true := by
  decide +kernel

/-- Concat: mixed widening conversions inside concat. tests/unit/ConcatTests.cpp:732-747. -/
def concatMixedWideningConversionsInsideConcat : Design' :=
  { sigs := [⟨chs "a", 4, true, chs "m.a"⟩, ⟨chs "b", 2, true, chs "m.b"⟩, ⟨chs "r", 10, true, chs "m.r"⟩]
    tree := [.inst false (chs "m") (chs "m") [.port ⟨100, some 0, .input, [⟨0, 3, true⟩]⟩, .port ⟨101, some 1,
        .input, [⟨0, 1, true⟩]⟩, .port ⟨102, some 2, .output, [⟨0, 9, false⟩]⟩, blk 0]
        []]
    blocks := [cont (.lsp 10 ⟨some 2, 0, 9⟩ []) (.concat 10 [.conv 6 false none (.lsp 2 ⟨some 1, 0, 1⟩ []),
        .lsp 4 ⟨some 0, 0, 3⟩ []])] }

theorem concatMixedWideningConversionsInsideConcat_ok : meets concatMixedWideningConversionsInsideConcat [
    .path (chs "m.a") (chs "m.r") true, .path (chs "m.b") (chs "m.r") true,
    .named (chs "m.r") 4 4 (chs "m.a") false, .named (chs "m.r") 5 5 (chs "m.a") false,
    .named (chs "m.r") 6 6 (chs "m.a") false, .named (chs "m.r") 7 7 (chs "m.a") false,
    .named (chs "m.r") 8 8 (chs "m.a") false, .named (chs "m.r") 9 9 (chs "m.a") false,
    .named (chs "m.r") 0 0 (chs "m.b") false, .named (chs "m.r") 1 1 (chs "m.b") false,
    .named (chs "m.r") 2 2 (chs "m.b") false, .named (chs "m.r") 3 3 (chs "m.b") false] = true := by
  decide +kernel

/-- Concat: LHS bit-select inside concat aligns per bit. tests/unit/ConcatTests.cpp:754-777. -/
def concatLhsBitSelectInsideConcat : Design' :=
  { sigs := [⟨chs "c", 2, true, chs "m.c"⟩, ⟨chs "d", 1, true, chs "m.d"⟩, ⟨chs "a", 2, true, chs "m.a"⟩, ⟨chs "b",
      1, true, chs "m.b"⟩]
    tree := [.inst false (chs "m") (chs "m") [.port ⟨100, some 0, .input, [⟨0, 1, true⟩]⟩, .port ⟨101, some 1,
        .input, [⟨0, 0, true⟩]⟩, .port ⟨102, some 2, .output, [⟨0, 0, false⟩, ⟨1, 0, false⟩]⟩, .port ⟨103, some 3,
        .output, [⟨0, 0, false⟩]⟩, blk 0]
        []]
    blocks := [cont (.concat 3 [.lsp 1 ⟨some 2, 1, 0⟩ [], .lsp 1 ⟨some 3, 0, 0⟩ [], .lsp 1 ⟨some 2, 0,
        0⟩ []]) (.concat 3 [.lsp 1 ⟨some 0, 1, 0⟩ [], .lsp 1 ⟨some 0, 0, 0⟩ [], .lsp 1 ⟨some 1, 0, 0⟩ []])] }

theorem concatLhsBitSelectInsideConcat_ok : meets concatLhsBitSelectInsideConcat [
    .atLeast (chs "m.a") 1 1 1, .atLeast (chs "m.a") 0 0 1, .atLeast (chs "m.b") 0 0 1,
    .distinct (chs "m.a") 1 1 (chs "m.a") 0 0, .distinct (chs "m.a") 1 1 (chs "m.b") 0 0,
    .distinct (chs "m.a") 0 0 (chs "m.b") 0 0, .path (chs "m.d") (chs "m.b") false,
    .path (chs "m.c") (chs "m.b") true] = true := by
  decide +kernel

/-- Concat: conditional embedded in concat fans out to both arms. tests/unit/ConcatTests.cpp:783-809. -/
def concatConditionalEmbeddedInConcatFans : Design' :=
  { sigs := [⟨chs "s", 1, true, chs "m.s"⟩, ⟨chs "a", 1, true, chs "m.a"⟩, ⟨chs "b", 1, true, chs "m.b"⟩, ⟨chs "c",
      2, true, chs "m.c"⟩, ⟨chs "r", 3, true, chs "m.r"⟩]
    tree := [.inst false (chs "m") (chs "m") [.port ⟨100, some 0, .input, [⟨0, 0, true⟩]⟩, .port ⟨101, some 1,
        .input, [⟨0, 0, true⟩]⟩, .port ⟨102, some 2, .input, [⟨0, 0, true⟩]⟩, .port ⟨103, some 3, .input, [⟨0, 1,
        true⟩]⟩, .port ⟨104, some 4, .output, [⟨0, 2, false⟩]⟩, blk 0]
        []]
    blocks := [cont (.lsp 3 ⟨some 4, 0, 2⟩ []) (.concat 3 [.condOp 1 1 false [] (.lsp 1 ⟨some 0, 0,
        0⟩ []) (.lsp 1 ⟨some 1, 0, 0⟩ []) (.lsp 1 ⟨some 2, 0, 0⟩ []), .lsp 2 ⟨some 3, 0, 1⟩ []])] }

theorem concatConditionalEmbeddedInConcatFans_ok : meets concatConditionalEmbeddedInConcatFans [
    .path (chs "m.s") (chs "m.r") true, .path (chs "m.a") (chs "m.r") true, .path (chs "m.b") (chs "m.r") true,
    .path (chs "m.c") (chs "m.r") true, .atLeast (chs "m.r") 2 2 1, .atLeast (chs "m.r") 1 1 1,
    .atLeast (chs "m.r") 0 0 1, .distinct (chs "m.r") 2 2 (chs "m.r") 1 1,
        .distinct (chs "m.r") 2 2 (chs "m.r") 0 0] = true := by
  decide +kernel

/-- Concat: replication of concat operand. tests/unit/ConcatTests.cpp:813-827. -/
def concatReplicationOfConcatOperand : Design' :=
  { sigs := [⟨chs "a", 1, true, chs "m.a"⟩, ⟨chs "b", 1, true, chs "m.b"⟩, ⟨chs "r", 6, true, chs "m.r"⟩]
    tree := [.inst false (chs "m") (chs "m") [.port ⟨100, some 0, .input, [⟨0, 0, true⟩]⟩, .port ⟨101, some 1,
        .input, [⟨0, 0, true⟩]⟩, .port ⟨102, some 2, .output, [⟨0, 5, false⟩]⟩, blk 0]
        []]
    blocks := [cont (.lsp 6 ⟨some 2, 0, 5⟩ []) (.repl 6 (some 3) (.concat 2 [.lsp 1 ⟨some 0, 0, 0⟩ [],
        .lsp 1 ⟨some 1, 0, 0⟩ []]))] }

theorem concatReplicationOfConcatOperand_ok : meets concatReplicationOfConcatOperand [
    .path (chs "m.a") (chs "m.r") true, .path (chs "m.b") (chs "m.r") true,
    .named (chs "m.r") 0 0 (chs "m.a") false, .named (chs "m.r") 1 1 (chs "m.b") false,
    .named (chs "m.r") 2 2 (chs "m.a") false, .named (chs "m.r") 3 3 (chs "m.b") false,
    .named (chs "m.r") 4 4 (chs "m.a") false, .named (chs "m.r") 5 5 (chs "m.b") false] = true := by
  decide +kernel

/-- Concat: case-driven concat assignments inside always_comb. tests/unit/ConcatTests.cpp:832-856. -/
def concatCaseDrivenConcatAssignmentsInside : Design' :=
  { sigs := [⟨chs "sel", 2, true, chs "m.sel"⟩, ⟨chs "a", 2, true, chs "m.a"⟩, ⟨chs "b", 2, true, chs "m.b"⟩,
      ⟨chs "c", 2, true, chs "m.c"⟩, ⟨chs "d", 2, true, chs "m.d"⟩, ⟨chs "r", 2, true, chs "m.r"⟩]
    tree := [.inst false (chs "m") (chs "m") [.port ⟨100, some 0, .input, [⟨0, 1, true⟩]⟩, .port ⟨101, some 1,
        .input, [⟨0, 1, true⟩]⟩, .port ⟨102, some 2, .input, [⟨0, 1, true⟩]⟩, .port ⟨103, some 3, .input, [⟨0, 1,
        true⟩]⟩, .port ⟨104, some 4, .input, [⟨0, 1, true⟩]⟩, .port ⟨105, some 5, .output, [⟨0, 1, false⟩]⟩, blk 0]
        []]
    blocks := [.procedural .alwaysComb .other (.cond true {} [.lsp 2 ⟨some 0, 0, 1⟩ [], .other 2 (some [.zero,
        .zero]) [], .other 2 (some [.one, .zero]) [], .other 2 (some [.zero,
        .one]) []] (.choose true (.choose true (.choose true (ba (.lsp 2 ⟨some 5, 0, 1⟩ []) (.lsp 2 ⟨some 1, 0,
        1⟩ [])) (ba (.lsp 2 ⟨some 5, 0, 1⟩ []) (.lsp 2 ⟨some 2, 0, 1⟩ []))) (ba (.lsp 2 ⟨some 5, 0,
        1⟩ []) (.concat 2 [.lsp 1 ⟨some 1, 0, 0⟩ [], .lsp 1 ⟨some 2, 1, 0⟩ []]))) (ba (.lsp 2 ⟨some 5, 0,
        1⟩ []) (.concat 2 [.lsp 1 ⟨some 3, 0, 0⟩ [], .lsp 1 ⟨some 4, 1, 0⟩ []]))))] }

theorem concatCaseDrivenConcatAssignmentsInside_ok : meets concatCaseDrivenConcatAssignmentsInside [
    .path (chs "m.sel") (chs "m.r") true, .path (chs "m.a") (chs "m.r") true, .path (chs "m.b") (chs "m.r") true,
    .path (chs "m.c") (chs "m.r") true, .path (chs "m.d") (chs "m.r") true, .atLeast (chs "m.r") 0 0 2,
    .atLeast (chs "m.r") 1 1 2] = true := by
  decide +kernel

/-- Concat: three instances with distinct concat patterns. tests/unit/ConcatTests.cpp:861-889. -/
def concatThreeInstancesWithDistinctConcat : Design' :=
  { sigs := [⟨chs "a1", 1, true, chs "m.a1"⟩, ⟨chs "b1", 1, true, chs "m.b1"⟩, ⟨chs "a2", 1, true, chs "m.a2"⟩,
      ⟨chs "b2", 1, true, chs "m.b2"⟩, ⟨chs "a3", 1, true, chs "m.a3"⟩, ⟨chs "b3", 1, true, chs "m.b3"⟩, ⟨chs "c1",
      1, true, chs "m.c1"⟩, ⟨chs "d1", 1, true, chs "m.d1"⟩, ⟨chs "c2", 1, true, chs "m.c2"⟩, ⟨chs "d2", 1, true,
      chs "m.d2"⟩, ⟨chs "c3", 1, true, chs "m.c3"⟩, ⟨chs "d3", 1, true, chs "m.d3"⟩, ⟨chs "i", 2, true,
      chs "m.u1.i"⟩, ⟨chs "o", 2, true, chs "m.u1.o"⟩, ⟨chs "i", 2, true, chs "m.u2.i"⟩, ⟨chs "o", 2, true,
      chs "m.u2.o"⟩, ⟨chs "i", 2, true, chs "m.u3.i"⟩, ⟨chs "o", 2, true, chs "m.u3.o"⟩]
    tree := [.inst false (chs "m") (chs "m") [.port ⟨100, some 0, .input, [⟨0, 0, true⟩]⟩, .port ⟨101, some 1,
        .input, [⟨0, 0, true⟩]⟩, .port ⟨102, some 2, .input, [⟨0, 0, true⟩]⟩, .port ⟨103, some 3, .input, [⟨0, 0,
        true⟩]⟩, .port ⟨104, some 4, .input, [⟨0, 0, true⟩]⟩, .port ⟨105, some 5, .input, [⟨0, 0, true⟩]⟩,
        .port ⟨106, some 6, .output, [⟨0, 0, false⟩]⟩, .port ⟨107, some 7, .output, [⟨0, 0, false⟩]⟩, .port ⟨108,
        some 8, .output, [⟨0, 0, false⟩]⟩, .port ⟨109, some 9, .output, [⟨0, 0, false⟩]⟩, .port ⟨110, some 10,
        .output, [⟨0, 0, false⟩]⟩, .port ⟨111, some 11, .output, [⟨0, 0, false⟩]⟩,
        .inst false (chs "sub") (chs "m.u1") [.port ⟨112, some 12, .input, [⟨0, 1, true⟩]⟩, .port ⟨113, some 13,
        .output, [⟨0, 1, false⟩]⟩, blk 0]
        [⟨.port 112 (some 12), some (.concat 2 [.lsp 1 ⟨some 1, 0, 0⟩ [], .lsp 1 ⟨some 0, 0, 0⟩ []]), false, true⟩,
         ⟨.port 113 (some 13), some (.concat 2 [.lsp 1 ⟨some 7, 0, 0⟩ [], .lsp 1 ⟨some 6, 0, 0⟩ []]), true, true⟩],
             .inst false (chs "sub") (chs "m.u2") [.port ⟨114, some 14, .input, [⟨0, 1, true⟩]⟩, .port ⟨115,
             some 15, .output, [⟨0, 1, false⟩]⟩, blk 1]
        [⟨.port 114 (some 14), some (.concat 2 [.lsp 1 ⟨some 3, 0, 0⟩ [], .lsp 1 ⟨some 2, 0, 0⟩ []]), false, true⟩,
         ⟨.port 115 (some 15), some (.concat 2 [.lsp 1 ⟨some 9, 0, 0⟩ [], .lsp 1 ⟨some 8, 0, 0⟩ []]), true, true⟩],
             .inst false (chs "sub") (chs "m.u3") [.port ⟨116, some 16, .input, [⟨0, 1, true⟩]⟩, .port ⟨117,
             some 17, .output, [⟨0, 1, false⟩]⟩, blk 2]
        [⟨.port 116 (some 16), some (.concat 2 [.lsp 1 ⟨some 5, 0, 0⟩ [], .lsp 1 ⟨some 4, 0, 0⟩ []]), false, true⟩,
         ⟨.port 117 (some 17), some (.concat 2 [.lsp 1 ⟨some 11, 0, 0⟩ [], .lsp 1 ⟨some 10, 0, 0⟩ []]), true, true⟩]]
        []]
    blocks := [cont (.lsp 2 ⟨some 13, 0, 1⟩ []) (.lsp 2 ⟨some 12, 0, 1⟩ []),
      cont (.lsp 2 ⟨some 15, 0, 1⟩ []) (.lsp 2 ⟨some 14, 0, 1⟩ []),
      cont (.lsp 2 ⟨some 17, 0, 1⟩ []) (.lsp 2 ⟨some 16, 0, 1⟩ [])] }

theorem concatThreeInstancesWithDistinctConcat_ok : meets concatThreeInstancesWithDistinctConcat [
    .path (chs "m.a1") (chs "m.c1") true, .path (chs "m.b1") (chs "m.d1") true,
    .path (chs "m.a2") (chs "m.c2") true, .path (chs "m.b2") (chs "m.d2") true,
    .path (chs "m.a3") (chs "m.c3") true, .path (chs "m.b3") (chs "m.d3") true,
    .path (chs "m.a1") (chs "m.d1") false, .path (chs "m.b2") (chs "m.c2") false,
    .path (chs "m.a3") (chs "m.d3") false, .path (chs "m.a1") (chs "m.c2") false,
    .path (chs "m.a2") (chs "m.c3") false, .path (chs "m.b3") (chs "m.d1") false] = true := by
  decide +kernel

/-- Concat: asymmetric concat — input split, output whole-word. tests/unit/ConcatTests.cpp:894-908. -/
def concatAsymmetricConcatInputSplitOutput : Design' :=
  { sigs := [⟨chs "a", 1, true, chs "m.a"⟩, ⟨chs "b", 1, true, chs "m.b"⟩, ⟨chs "o", 2, true, chs "m.o"⟩, ⟨chs "i",
      2, true, chs "m.u.i"⟩, ⟨chs "o", 2, true, chs "m.u.o"⟩]
    tree := [.inst false (chs "m") (chs "m") [.port ⟨100, some 0, .input, [⟨0, 0, true⟩]⟩, .port ⟨101, some 1,
        .input, [⟨0, 0, true⟩]⟩, .port ⟨102, some 2, .output, [⟨0, 1, false⟩]⟩,
        .inst false (chs "sub") (chs "m.u") [.port ⟨103, some 3, .input, [⟨0, 1, true⟩]⟩, .port ⟨104, some 4,
        .output, [⟨0, 1, false⟩]⟩, blk 0]
        [⟨.port 103 (some 3), some (.concat 2 [.lsp 1 ⟨some 1, 0, 0⟩ [], .lsp 1 ⟨some 0, 0, 0⟩ []]), false, true⟩,
         ⟨.port 104 (some 4), some (.lsp 2 ⟨some 2, 0, 1⟩ []), true, true⟩]]
        []]
    blocks := [cont (.lsp 2 ⟨some 4, 0, 1⟩ []) (.lsp 2 ⟨some 3, 0, 1⟩ [])] }

theorem concatAsymmetricConcatInputSplitOutput_ok : meets concatAsymmetricConcatInputSplitOutput [
    .path (chs "m.a") (chs "m.o") true, .path (chs "m.b") (chs "m.o") true] = true := by
  decide +kernel

/-- Concat: generate-loop submodules with concat actuals. tests/unit/ConcatTests.cpp:914-928. -/
def concatGenerateLoopSubmodulesWithConcat : Design' :=
  { sigs := [⟨chs "in", 4, true, chs "m.in"⟩, ⟨chs "out", 4, true, chs "m.out"⟩, ⟨chs "i", 2, true,
      chs "m.gen[0].u.i"⟩, ⟨chs "o", 2, true, chs "m.gen[0].u.o"⟩, ⟨chs "i", 2, true, chs "m.gen[1].u.i"⟩,
      ⟨chs "o", 2, true, chs "m.gen[1].u.o"⟩]
    tree := [.inst false (chs "m") (chs "m") [.port ⟨100, some 0, .input, [⟨0, 3, true⟩]⟩, .port ⟨101, some 1,
        .output, [⟨0, 0, false⟩, ⟨1, 0, false⟩, ⟨2, 0, false⟩, ⟨3, 0, false⟩]⟩,
        .group false [.group false [.inst false (chs "sub") (chs "m.gen[0].u") [.port ⟨102, some 2, .input, [⟨0, 1,
        true⟩]⟩, .port ⟨103, some 3, .output, [⟨0, 1, false⟩]⟩, blk 0]
        [⟨.port 102 (some 2), some (.concat 2 [.lsp 1 ⟨some 0, 1, 0⟩ [], .lsp 1 ⟨some 0, 0, 0⟩ []]), false, true⟩,
         ⟨.port 103 (some 3), some (.concat 2 [.lsp 1 ⟨some 1, 1, 0⟩ [], .lsp 1 ⟨some 1, 0, 0⟩ []]), true, true⟩]],
             .group false [.inst false (chs "sub") (chs "m.gen[1].u") [.port ⟨104, some 4, .input, [⟨0, 1, true⟩]⟩,
             .port ⟨105, some 5, .output, [⟨0, 1, false⟩]⟩, blk 1]
        [⟨.port 104 (some 4), some (.concat 2 [.lsp 1 ⟨some 0, 3, 0⟩ [], .lsp 1 ⟨some 0, 2, 0⟩ []]), false, true⟩,
         ⟨.port 105 (some 5), some (.concat 2 [.lsp 1 ⟨some 1, 3, 0⟩ [], .lsp 1 ⟨some 1, 2, 0⟩ []]), true, true⟩]]]]
        []]
    blocks := [cont (.lsp 2 ⟨some 3, 0, 1⟩ []) (.lsp 2 ⟨some 2, 0, 1⟩ []),
      cont (.lsp 2 ⟨some 5, 0, 1⟩ []) (.lsp 2 ⟨some 4, 0, 1⟩ [])] }

theorem concatGenerateLoopSubmodulesWithConcat_ok : meets concatGenerateLoopSubmodulesWithConcat [
    .path (chs "m.in") (chs "m.out") true] = true := by
  decide +kernel

/-- Concat: three-level hierarchy with concat at outer boundary. tests/unit/ConcatTests.cpp:934-956. -/
def concatThreeLevelHierarchyWithConcat : Design' :=
  { sigs := [⟨chs "a", 1, true, chs "top.a"⟩, ⟨chs "b", 1, true, chs "top.b"⟩, ⟨chs "c", 1, true, chs "top.c"⟩,
      ⟨chs "d", 1, true, chs "top.d"⟩, ⟨chs "oi", 2, true, chs "top.u.oi"⟩, ⟨chs "oo", 2, true, chs "top.u.oo"⟩,
      ⟨chs "mi", 2, true, chs "top.u.u.mi"⟩, ⟨chs "mo", 2, true, chs "top.u.u.mo"⟩, ⟨chs "i", 2, true,
      chs "top.u.u.u.i"⟩, ⟨chs "o", 2, true, chs "top.u.u.u.o"⟩]
    tree := [.inst false (chs "top") (chs "top") [.port ⟨100, some 0, .input, [⟨0, 0, true⟩]⟩, .port ⟨101, some 1,
        .input, [⟨0, 0, true⟩]⟩, .port ⟨102, some 2, .output, [⟨0, 0, false⟩]⟩, .port ⟨103, some 3, .output, [⟨0,
        0, false⟩]⟩, .inst false (chs "outer") (chs "top.u") [.port ⟨104, some 4, .input, [⟨0, 1, true⟩]⟩,
        .port ⟨105, some 5, .output, [⟨0, 1, false⟩]⟩, .inst false (chs "mid") (chs "top.u.u") [.port ⟨106, some 6,
        .input, [⟨0, 1, true⟩]⟩, .port ⟨107, some 7, .output, [⟨0, 1, false⟩]⟩,
        .inst false (chs "inner") (chs "top.u.u.u") [.port ⟨108, some 8, .input, [⟨0, 1, true⟩]⟩, .port ⟨109,
        some 9, .output, [⟨0, 1, false⟩]⟩, blk 0]
        [⟨.port 108 (some 8), some (.lsp 2 ⟨some 6, 0, 1⟩ []), false, true⟩,
         ⟨.port 109 (some 9), some (.lsp 2 ⟨some 7, 0, 1⟩ []), true, true⟩]]
        [⟨.port 106 (some 6), some (.lsp 2 ⟨some 4, 0, 1⟩ []), false, true⟩,
         ⟨.port 107 (some 7), some (.lsp 2 ⟨some 5, 0, 1⟩ []), true, true⟩]]
        [⟨.port 104 (some 4), some (.concat 2 [.lsp 1 ⟨some 1, 0, 0⟩ [], .lsp 1 ⟨some 0, 0, 0⟩ []]), false, true⟩,
         ⟨.port 105 (some 5), some (.concat 2 [.lsp 1 ⟨some 3, 0, 0⟩ [], .lsp 1 ⟨some 2, 0, 0⟩ []]), true, true⟩]]
        []]
    blocks := [cont (.lsp 2 ⟨some 9, 0, 1⟩ []) (.lsp 2 ⟨some 8, 0, 1⟩ [])] }

theorem concatThreeLevelHierarchyWithConcat_ok : meets concatThreeLevelHierarchyWithConcat [
    .path (chs "top.a") (chs "top.c") true, .path (chs "top.b") (chs "top.d") true] = true := by
  decide +kernel

/-- Concat: wide port with multiple cut points and mixed actuals. tests/unit/ConcatTests.cpp:962-985. -/
def concatWidePortWithMultipleCut : Design' :=
  { sigs := [⟨chs "top_bit", 1, true, chs "m.top_bit"⟩, ⟨chs "mid", 4, true, chs "m.mid"⟩, ⟨chs "lo", 3, true,
      chs "m.lo"⟩, ⟨chs "r", 8, true, chs "m.r"⟩, ⟨chs "i", 8, true, chs "m.u.i"⟩, ⟨chs "o", 8, true, chs "m.u.o"⟩]
    tree := [.inst false (chs "m") (chs "m") [.port ⟨100, some 0, .input, [⟨0, 0, true⟩]⟩, .port ⟨101, some 1,
        .input, [⟨0, 3, true⟩]⟩, .port ⟨102, some 2, .input, [⟨0, 2, true⟩]⟩, .port ⟨103, some 3, .output, [⟨0, 7,
        false⟩]⟩, .inst false (chs "sub") (chs "m.u") [.port ⟨104, some 4, .input, [⟨0, 7, true⟩]⟩, .port ⟨105,
        some 5, .output, [⟨0, 7, false⟩]⟩, blk 0]
        [⟨.port 104 (some 4), some (.concat 8 [.lsp 1 ⟨some 0, 0, 0⟩ [], .lsp 4 ⟨some 1, 0, 3⟩ [], .lsp 3 ⟨some 2,
            0, 2⟩ []]), false, true⟩,
         ⟨.port 105 (some 5), some (.lsp 8 ⟨some 3, 0, 7⟩ []), true, true⟩]]
        []]
    blocks := [cont (.lsp 8 ⟨some 5, 0, 7⟩ []) (.lsp 8 ⟨some 4, 0, 7⟩ [])] }

theorem concatWidePortWithMultipleCut_ok : meets concatWidePortWithMultipleCut [
    .path (chs "m.top_bit") (chs "m.r") true, .path (chs "m.mid") (chs "m.r") true,
    .path (chs "m.lo") (chs "m.r") true, .named (chs "m.r") 7 7 (chs "m.mid") false,
    .named (chs "m.r") 7 7 (chs "m.lo") false, .named (chs "m.r") 3 3 (chs "m.lo") false,
    .named (chs "m.r") 4 4 (chs "m.lo") false, .named (chs "m.r") 5 5 (chs "m.lo") false,
    .named (chs "m.r") 6 6 (chs "m.lo") false, .named (chs "m.r") 7 7 (chs "m.lo") false] = true := by
  decide +kernel

/-- Concat: two registered instances with concat ports. tests/unit/ConcatTests.cpp:990-1014. -/
def concatTwoRegisteredInstancesWithConcat : Design' :=
  { sigs := [⟨chs "clk", 1, true, chs "m.clk"⟩, ⟨chs "a", 1, true, chs "m.a"⟩, ⟨chs "b", 1, true, chs "m.b"⟩,
      ⟨chs "e", 1, true, chs "m.e"⟩, ⟨chs "f", 1, true, chs "m.f"⟩, ⟨chs "c", 1, true, chs "m.c"⟩, ⟨chs "d", 1,
      true, chs "m.d"⟩, ⟨chs "g", 1, true, chs "m.g"⟩, ⟨chs "h", 1, true, chs "m.h"⟩, ⟨chs "clk", 1, true,
      chs "m.u1.clk"⟩, ⟨chs "i", 2, true, chs "m.u1.i"⟩, ⟨chs "o", 2, true, chs "m.u1.o"⟩, ⟨chs "clk", 1, true,
      chs "m.u2.clk"⟩, ⟨chs "i", 2, true, chs "m.u2.i"⟩, ⟨chs "o", 2, true, chs "m.u2.o"⟩]
    tree := [.inst false (chs "m") (chs "m") [.port ⟨100, some 0, .input, [⟨0, 0, true⟩]⟩, .port ⟨101, some 1,
        .input, [⟨0, 0, true⟩]⟩, .port ⟨102, some 2, .input, [⟨0, 0, true⟩]⟩, .port ⟨103, some 3, .input, [⟨0, 0,
        true⟩]⟩, .port ⟨104, some 4, .input, [⟨0, 0, true⟩]⟩, .port ⟨105, some 5, .output, [⟨0, 0, false⟩]⟩,
        .port ⟨106, some 6, .output, [⟨0, 0, false⟩]⟩, .port ⟨107, some 7, .output, [⟨0, 0, false⟩]⟩, .port ⟨108,
        some 8, .output, [⟨0, 0, false⟩]⟩, .inst false (chs "sub") (chs "m.u1") [.port ⟨109, some 9, .input, [⟨0,
        0, true⟩]⟩, .port ⟨110, some 10, .input, [⟨0, 1, true⟩]⟩, .port ⟨111, some 11, .output, [⟨0, 1, false⟩]⟩,
        blk 0]
        [⟨.port 109 (some 9), some (.lsp 1 ⟨some 0, 0, 0⟩ []), false, true⟩,
         ⟨.port 110 (some 10), some (.concat 2 [.lsp 1 ⟨some 2, 0, 0⟩ [], .lsp 1 ⟨some 1, 0, 0⟩ []]), false, true⟩,
         ⟨.port 111 (some 11), some (.concat 2 [.lsp 1 ⟨some 6, 0, 0⟩ [], .lsp 1 ⟨some 5, 0, 0⟩ []]), true, true⟩],
             .inst false (chs "sub") (chs "m.u2") [.port ⟨112, some 12, .input, [⟨0, 0, true⟩]⟩, .port ⟨113,
             some 13, .input, [⟨0, 1, true⟩]⟩, .port ⟨114, some 14, .output, [⟨0, 1, false⟩]⟩, blk 1]
        [⟨.port 112 (some 12), some (.lsp 1 ⟨some 0, 0, 0⟩ []), false, true⟩,
         ⟨.port 113 (some 13), some (.concat 2 [.lsp 1 ⟨some 4, 0, 0⟩ [], .lsp 1 ⟨some 3, 0, 0⟩ []]), false, true⟩,
         ⟨.port 114 (some 14), some (.concat 2 [.lsp 1 ⟨some 8, 0, 0⟩ [], .lsp 1 ⟨some 7, 0, 0⟩ []]), true, true⟩]]
        []]
    blocks := [.procedural .alwaysFF (.timed (.signalEvent ⟨.posEdge, some 9⟩)) (nba (.lsp 2 ⟨some 11, 0,
        1⟩ []) (.lsp 2 ⟨some 10, 0, 1⟩ [])),
      .procedural .alwaysFF (.timed (.signalEvent ⟨.posEdge, some 12⟩)) (nba (.lsp 2 ⟨some 14, 0,
          1⟩ []) (.lsp 2 ⟨some 13, 0, 1⟩ []))] }

theorem concatTwoRegisteredInstancesWithConcat_ok : meets concatTwoRegisteredInstancesWithConcat [
    .path (chs "m.a") (chs "m.c") true, .path (chs "m.b") (chs "m.d") true, .path (chs "m.e") (chs "m.g") true,
    .path (chs "m.f") (chs "m.h") true, .path (chs "m.a") (chs "m.d") false, .path (chs "m.b") (chs "m.c") false,
    .path (chs "m.e") (chs "m.h") false, .path (chs "m.f") (chs "m.g") false, .path (chs "m.a") (chs "m.g") false,
    .path (chs "m.e") (chs "m.c") false] = true := by
  decide +kernel

end Verif.Conform.Concat

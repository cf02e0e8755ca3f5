import Verif.Conform.Base

/-!
The model on designs of the project's unit tests: procedural blocks, data types and constants. Each design is that of a test under
`tests/unit`, written out by a script from the SystemVerilog text of the test, and the checks are those of
the test. These are tests of the model, not proofs about the code.
-/
namespace Verif.Conform.Blocks
open Verif.Model

/-- If statement with else branch assigning variables. tests/unit/ConditionalTests.cpp:40-77. -/
def ifStatementWithElseBranchAssigning : Design' :=
  { sigs := [⟨chs "a", 1, true, chs "m.a"⟩, ⟨chs "b", 1, true, chs "m.b"⟩, ⟨chs "c", 1, true, chs "m.c"⟩, ⟨chs "d",
      1, true, chs "m.d"⟩]
    tree := [.inst false (chs "m") (chs "m") [.port ⟨100, some 0, .input, [⟨0, 0, true⟩]⟩, .port ⟨101, some 1,
        .input, [⟨0, 0, true⟩]⟩, .port ⟨102, some 2, .input, [⟨0, 0, true⟩]⟩, .port ⟨103, some 3, .output, [⟨0, 0,
        false⟩]⟩, blk 0]
        []]
    blocks := [.procedural .alwaysComb .other (ite (.lsp 1 ⟨some 0, 0, 0⟩ []) (ba (.lsp 1 ⟨some 3, 0,
        0⟩ []) (.lsp 1 ⟨some 1, 0, 0⟩ [])) (ba (.lsp 1 ⟨some 3, 0, 0⟩ []) (.lsp 1 ⟨some 2, 0, 0⟩ [])))] }

theorem ifStatementWithElseBranchAssigning_ok : meets ifStatementWithElseBranchAssigning [
    .path (chs "m.a") (chs "m.d") true, .path (chs "m.b") (chs "m.d") true,
        .path (chs "m.c") (chs "m.d") true] = true := by
  decide +kernel

/-- Ternary operator in continuous assignment. tests/unit/ConditionalTests.cpp:79-102. -/
def ternaryOperatorInContinuousAssignment : Design' :=
  { sigs := [⟨chs "a", 1, true, chs "m.a"⟩, ⟨chs "b", 1, true, chs "m.b"⟩, ⟨chs "ctrl", 1, true, chs "m.ctrl"⟩,
      ⟨chs "c", 1, true, chs "m.c"⟩]
    tree := [.inst false (chs "m") (chs "m") [.port ⟨100, some 0, .input, [⟨0, 0, true⟩]⟩, .port ⟨101, some 1,
        .input, [⟨0, 0, true⟩]⟩, .port ⟨102, some 2, .input, [⟨0, 0, true⟩]⟩, .port ⟨103, some 3, .output, [⟨0, 0,
        false⟩]⟩, blk 0]
        []]
    blocks := [cont (.lsp 1 ⟨some 3, 0, 0⟩ []) (.condOp 1 1 false [] (.lsp 1 ⟨some 2, 0, 0⟩ []) (.lsp 1 ⟨some 0, 0,
        0⟩ []) (.lsp 1 ⟨some 1, 0, 0⟩ []))] }

theorem ternaryOperatorInContinuousAssignment_ok : meets ternaryOperatorInContinuousAssignment [
    .path (chs "m.a") (chs "m.c") true, .path (chs "m.b") (chs "m.c") true,
        .path (chs "m.ctrl") (chs "m.c") true] = true := by
  decide +kernel

/-- Four-way case statement. tests/unit/ConditionalTests.cpp:104-155. -/
def fourWayCaseStatement : Design' :=
  { sigs := [⟨chs "a", 2, true, chs "m.a"⟩, ⟨chs "b", 1, true, chs "m.b"⟩]
    tree := [.inst false (chs "m") (chs "m") [.port ⟨100, some 0, .input, [⟨0, 1, true⟩]⟩, .port ⟨101, some 1,
        .output, [⟨0, 0, false⟩]⟩, blk 0]
        []]
    blocks := [.procedural .alwaysComb .other (.cond true {} [.lsp 2 ⟨some 0, 0, 1⟩ [], .other 2 (some [.zero,
        .zero]) [], .other 2 (some [.one, .zero]) [], .other 2 (some [.zero, .one]) [], .other 2 (some [.one,
        .one]) []] (.choose true (.choose true (.choose true (ba (.lsp 1 ⟨some 1, 0,
        0⟩ []) (.conv 1 false (some [.zero]) (.other 32 (some [.zero, .zero, .zero, .zero, .zero, .zero, .zero,
        .zero, .zero, .zero, .zero, .zero, .zero, .zero, .zero, .zero, .zero, .zero, .zero, .zero, .zero, .zero,
        .zero, .zero, .zero, .zero, .zero, .zero, .zero, .zero, .zero, .zero]) []))) (ba (.lsp 1 ⟨some 1, 0,
        0⟩ []) (.conv 1 false (some [.one]) (.other 32 (some [.one, .zero, .zero, .zero, .zero, .zero, .zero,
        .zero, .zero, .zero, .zero, .zero, .zero, .zero, .zero, .zero, .zero, .zero, .zero, .zero, .zero, .zero,
        .zero, .zero, .zero, .zero, .zero, .zero, .zero, .zero, .zero, .zero]) [])))) (ba (.lsp 1 ⟨some 1, 0,
        0⟩ []) (.conv 1 false (some [.zero]) (.other 32 (some [.zero, .one, .zero, .zero, .zero, .zero, .zero,
        .zero, .zero, .zero, .zero, .zero, .zero, .zero, .zero, .zero, .zero, .zero, .zero, .zero, .zero, .zero,
        .zero, .zero, .zero, .zero, .zero, .zero, .zero, .zero, .zero, .zero]) [])))) (ba (.lsp 1 ⟨some 1, 0,
        0⟩ []) (.conv 1 false (some [.one]) (.other 32 (some [.one, .one, .zero, .zero, .zero, .zero, .zero, .zero,
        .zero, .zero, .zero, .zero, .zero, .zero, .zero, .zero, .zero, .zero, .zero, .zero, .zero, .zero, .zero,
        .zero, .zero, .zero, .zero, .zero, .zero, .zero, .zero, .zero]) [])))))] }

theorem fourWayCaseStatement_ok : meets fourWayCaseStatement [
    .path (chs "m.a") (chs "m.b") true] = true := by
  decide +kernel

/-- Variable is not assigned on all control paths (else). tests/unit/ConditionalTests.cpp:157-170. -/
def variableIsNotAssignedOnAll : Design' :=
  { sigs := [⟨chs "a", 1, true, chs "m.a"⟩, ⟨chs "y", 1, true, chs "m.y"⟩, ⟨chs "t", 1, false, chs "m.t"⟩]
    tree := [.inst false (chs "m") (chs "m") [.port ⟨100, some 0, .input, [⟨0, 0, true⟩]⟩, .port ⟨101, some 1,
        .output, [⟨0, 0, false⟩]⟩, blk 0, blk 1]
        []]
    blocks := [.procedural .alwaysComb .other (ite (.lsp 1 ⟨some 0, 0, 0⟩ []) (ba (.lsp 1 ⟨some 2, 0,
        0⟩ []) (.conv 1 false (some [.one]) (.other 32 (some [.one, .zero, .zero, .zero, .zero, .zero, .zero,
        .zero, .zero, .zero, .zero, .zero, .zero, .zero, .zero, .zero, .zero, .zero, .zero, .zero, .zero, .zero,
        .zero, .zero, .zero, .zero, .zero, .zero, .zero, .zero, .zero, .zero]) []))) (.skip)),
      cont (.lsp 1 ⟨some 1, 0, 0⟩ []) (.lsp 1 ⟨some 2, 0, 0⟩ [])] }

theorem variableIsNotAssignedOnAll_ok : meets variableIsNotAssignedOnAll [
    .path (chs "m.a") (chs "m.y") true] = true := by
  decide +kernel

/-- Variable is not assigned on all control paths (then). tests/unit/ConditionalTests.cpp:172-186. -/
def variableIsNotAssignedOnAll2 : Design' :=
  { sigs := [⟨chs "a", 1, true, chs "m.a"⟩, ⟨chs "y", 1, true, chs "m.y"⟩, ⟨chs "t", 1, false, chs "m.t"⟩]
    tree := [.inst false (chs "m") (chs "m") [.port ⟨100, some 0, .input, [⟨0, 0, true⟩]⟩, .port ⟨101, some 1,
        .output, [⟨0, 0, false⟩]⟩, blk 0, blk 1]
        []]
    blocks := [.procedural .alwaysComb .other (ite (.lsp 1 ⟨some 0, 0, 0⟩ []) (.skip) (ba (.lsp 1 ⟨some 2, 0,
        0⟩ []) (.conv 1 false (some [.one]) (.other 32 (some [.one, .zero, .zero, .zero, .zero, .zero, .zero,
        .zero, .zero, .zero, .zero, .zero, .zero, .zero, .zero, .zero, .zero, .zero, .zero, .zero, .zero, .zero,
        .zero, .zero, .zero, .zero, .zero, .zero, .zero, .zero, .zero, .zero]) [])))),
      cont (.lsp 1 ⟨some 1, 0, 0⟩ []) (.lsp 1 ⟨some 2, 0, 0⟩ [])] }

theorem variableIsNotAssignedOnAll2_ok : meets variableIsNotAssignedOnAll2 [
    .path (chs "m.a") (chs "m.y") true] = true := by
  decide +kernel

/-- Unreachable assignment is ignored in data flow analysis. tests/unit/ConditionalTests.cpp:188-204. -/
def unreachableAssignmentIsIgnoredInData : Design' :=
  { sigs := [⟨chs "a", 1, true, chs "m.a"⟩, ⟨chs "b", 1, true, chs "m.b"⟩, ⟨chs "y", 1, true, chs "m.y"⟩, ⟨chs "t",
      1, false, chs "m.t"⟩]
    tree := [.inst false (chs "m") (chs "m") [.port ⟨100, some 0, .input, [⟨0, 0, true⟩]⟩, .port ⟨101, some 1,
        .input, [⟨0, 0, true⟩]⟩, .port ⟨102, some 2, .output, [⟨0, 0, false⟩]⟩, blk 0, blk 1]
        []]
    blocks := [.procedural .alwaysComb .other (.choose true (.seq .dead (ba (.lsp 1 ⟨some 3, 0,
        0⟩ []) (.lsp 1 ⟨some 0, 0, 0⟩ []))) (ba (.lsp 1 ⟨some 3, 0, 0⟩ []) (.lsp 1 ⟨some 1, 0, 0⟩ []))),
      cont (.lsp 1 ⟨some 2, 0, 0⟩ []) (.lsp 1 ⟨some 3, 0, 0⟩ [])] }

theorem unreachableAssignmentIsIgnoredInData_ok : meets unreachableAssignmentIsIgnoredInData [
    .path (chs "m.a") (chs "m.y") false, .path (chs "m.b") (chs "m.y") true] = true := by
  decide +kernel

/-- Merge two control paths assigning to different parts of a vector. tests/unit/ConditionalTests.cpp:206-229. -/
def mergeTwoControlPathsAssigningTo : Design' :=
  { sigs := [⟨chs "a", 1, true, chs "m.a"⟩, ⟨chs "b", 1, true, chs "m.b"⟩, ⟨chs "c", 1, true, chs "m.c"⟩, ⟨chs "x",
      1, true, chs "m.x"⟩, ⟨chs "y", 1, true, chs "m.y"⟩, ⟨chs "t", 2, false, chs "m.t"⟩]
    tree := [.inst false (chs "m") (chs "m") [.port ⟨100, some 0, .input, [⟨0, 0, true⟩]⟩, .port ⟨101, some 1,
        .input, [⟨0, 0, true⟩]⟩, .port ⟨102, some 2, .input, [⟨0, 0, true⟩]⟩, .port ⟨103, some 3, .output, [⟨0, 0,
        false⟩]⟩, .port ⟨104, some 4, .output, [⟨0, 0, false⟩]⟩, blk 0, blk 1, blk 2]
        []]
    blocks := [.procedural .alwaysComb .other (ite (.lsp 1 ⟨some 0, 0, 0⟩ []) (ba (.lsp 1 ⟨some 5, 0,
        0⟩ []) (.lsp 1 ⟨some 1, 0, 0⟩ [])) (ba (.lsp 1 ⟨some 5, 1, 0⟩ []) (.lsp 1 ⟨some 2, 0, 0⟩ []))),
      cont (.lsp 1 ⟨some 3, 0, 0⟩ []) (.lsp 1 ⟨some 5, 0, 0⟩ []),
      cont (.lsp 1 ⟨some 4, 0, 0⟩ []) (.lsp 1 ⟨some 5, 1, 0⟩ [])] }

theorem mergeTwoControlPathsAssigningTo_ok : meets mergeTwoControlPathsAssigningTo [
    .path (chs "m.b") (chs "m.x") true, .path (chs "m.c") (chs "m.y") true] = true := by
  decide +kernel

/-- Merge two control paths assigning to the same part of a vector. tests/unit/ConditionalTests.cpp:231-252. -/
def mergeTwoControlPathsAssigningTo2 : Design' :=
  { sigs := [⟨chs "a", 1, true, chs "m.a"⟩, ⟨chs "b", 1, true, chs "m.b"⟩, ⟨chs "c", 1, true, chs "m.c"⟩, ⟨chs "x",
      1, true, chs "m.x"⟩, ⟨chs "t", 2, false, chs "m.t"⟩]
    tree := [.inst false (chs "m") (chs "m") [.port ⟨100, some 0, .input, [⟨0, 0, true⟩]⟩, .port ⟨101, some 1,
        .input, [⟨0, 0, true⟩]⟩, .port ⟨102, some 2, .input, [⟨0, 0, true⟩]⟩, .port ⟨103, some 3, .output, [⟨0, 0,
        false⟩]⟩, blk 0, blk 1]
        []]
    blocks := [.procedural .alwaysComb .other (ite (.lsp 1 ⟨some 0, 0, 0⟩ []) (ba (.lsp 1 ⟨some 4, 1,
        0⟩ []) (.lsp 1 ⟨some 1, 0, 0⟩ [])) (ba (.lsp 1 ⟨some 4, 1, 0⟩ []) (.lsp 1 ⟨some 2, 0, 0⟩ []))),
      cont (.lsp 1 ⟨some 3, 0, 0⟩ []) (.lsp 1 ⟨some 4, 1, 0⟩ [])] }

theorem mergeTwoControlPathsAssigningTo2_ok : meets mergeTwoControlPathsAssigningTo2 [
    .path (chs "m.b") (chs "m.x") true, .path (chs "m.c") (chs "m.x") true] = true := by
  decide +kernel

/-- Merge two control paths assigning to overlapping of a vector. tests/unit/ConditionalTests.cpp:254-284. -/
def mergeTwoControlPathsAssigningTo3 : Design' :=
  { sigs := [⟨chs "a", 1, true, chs "m.a"⟩, ⟨chs "b", 1, true, chs "m.b"⟩, ⟨chs "c", 1, true, chs "m.c"⟩, ⟨chs "d",
      1, true, chs "m.d"⟩, ⟨chs "x", 1, true, chs "m.x"⟩, ⟨chs "y", 1, true, chs "m.y"⟩, ⟨chs "z", 1, true,
      chs "m.z"⟩, ⟨chs "t", 3, false, chs "m.t"⟩]
    tree := [.inst false (chs "m") (chs "m") [.port ⟨100, some 0, .input, [⟨0, 0, true⟩]⟩, .port ⟨101, some 1,
        .input, [⟨0, 0, true⟩]⟩, .port ⟨102, some 2, .input, [⟨0, 0, true⟩]⟩, .port ⟨103, some 3, .input, [⟨0, 0,
        true⟩]⟩, .port ⟨104, some 4, .output, [⟨0, 0, false⟩]⟩, .port ⟨105, some 5, .output, [⟨0, 0, false⟩]⟩,
        .port ⟨106, some 6, .output, [⟨0, 0, false⟩]⟩, blk 0, blk 1, blk 2, blk 3]
        []]
    blocks := [.procedural .alwaysComb .other (ite (.lsp 1 ⟨some 0, 0, 0⟩ []) (sq [ba (.lsp 1 ⟨some 7, 0,
        0⟩ []) (.lsp 1 ⟨some 3, 0, 0⟩ []), ba (.lsp 1 ⟨some 7, 1, 0⟩ []) (.lsp 1 ⟨some 1, 0,
        0⟩ [])]) (sq [ba (.lsp 1 ⟨some 7, 1, 0⟩ []) (.lsp 1 ⟨some 2, 0, 0⟩ []), ba (.lsp 1 ⟨some 7, 2,
        0⟩ []) (.lsp 1 ⟨some 3, 0, 0⟩ [])])),
      cont (.lsp 1 ⟨some 4, 0, 0⟩ []) (.lsp 1 ⟨some 7, 0, 0⟩ []),
      cont (.lsp 1 ⟨some 5, 0, 0⟩ []) (.lsp 1 ⟨some 7, 1, 0⟩ []),
      cont (.lsp 1 ⟨some 6, 0, 0⟩ []) (.lsp 1 ⟨some 7, 2, 0⟩ [])] }

theorem mergeTwoControlPathsAssigningTo3_ok : meets mergeTwoControlPathsAssigningTo3 [
    .path (chs "m.a") (chs "m.x") true, .path (chs "m.b") (chs "m.y") true, .path (chs "m.c") (chs "m.y") true,
    .path (chs "m.d") (chs "m.z") true] = true := by
  decide +kernel

/-- Nested conditionals assigning variables. tests/unit/ConditionalTests.cpp:286-309. -/
def nestedConditionalsAssigningVariables : Design' :=
  { sigs := [⟨chs "a", 1, true, chs "m.a"⟩, ⟨chs "b", 1, true, chs "m.b"⟩, ⟨chs "c", 1, true, chs "m.c"⟩,
      ⟨chs "sel_a", 1, true, chs "m.sel_a"⟩, ⟨chs "sel_b", 1, true, chs "m.sel_b"⟩, ⟨chs "f", 1, true, chs "m.f"⟩]
    tree := [.inst false (chs "m") (chs "m") [.port ⟨100, some 0, .input, [⟨0, 0, true⟩]⟩, .port ⟨101, some 1,
        .input, [⟨0, 0, true⟩]⟩, .port ⟨102, some 2, .input, [⟨0, 0, true⟩]⟩, .port ⟨103, some 3, .input, [⟨0, 0,
        true⟩]⟩, .port ⟨104, some 4, .input, [⟨0, 0, true⟩]⟩, .port ⟨105, some 5, .output, [⟨0, 0, false⟩]⟩, blk 0]
        []]
    blocks := [.procedural .always (.timed .other) (ite (.other 1 none [⟨some 3, 0,
        0⟩]) (ite (.other 1 none [⟨some 4, 0, 0⟩]) (ba (.lsp 1 ⟨some 5, 0, 0⟩ []) (.lsp 1 ⟨some 0, 0,
        0⟩ [])) (ba (.lsp 1 ⟨some 5, 0, 0⟩ []) (.lsp 1 ⟨some 1, 0, 0⟩ []))) (ba (.lsp 1 ⟨some 5, 0,
        0⟩ []) (.lsp 1 ⟨some 2, 0, 0⟩ [])))] }

theorem nestedConditionalsAssigningVariables_ok : meets nestedConditionalsAssigningVariables [
    .path (chs "m.a") (chs "m.f") true, .path (chs "m.b") (chs "m.f") true, .path (chs "m.c") (chs "m.f") true,
    .path (chs "m.sel_a") (chs "m.f") true, .path (chs "m.sel_b") (chs "m.f") true] = true := by
  decide +kernel

/-- Constant condition eliminates branch. tests/unit/ConditionalTests.cpp:311-332. -/
def constantConditionEliminatesBranch : Design' :=
  { sigs := [⟨chs "a", 1, true, chs "m.a"⟩, ⟨chs "b", 1, true, chs "m.b"⟩]
    tree := [.inst false (chs "m") (chs "m") [.port ⟨100, some 0, .input, [⟨0, 0, true⟩]⟩, .port ⟨101, some 1,
        .output, [⟨0, 0, false⟩]⟩, blk 0]
        []]
    blocks := [.procedural .alwaysComb .other (.choose true (ba (.lsp 1 ⟨some 1, 0, 0⟩ []) (.lsp 1 ⟨some 0, 0,
        0⟩ [])) (.seq .dead (ba (.lsp 1 ⟨some 1, 0, 0⟩ []) (.conv 1 false (some [.zero]) (.other 32 (some [.zero,
        .zero, .zero, .zero, .zero, .zero, .zero, .zero, .zero, .zero, .zero, .zero, .zero, .zero, .zero, .zero,
        .zero, .zero, .zero, .zero, .zero, .zero, .zero, .zero, .zero, .zero, .zero, .zero, .zero, .zero, .zero,
        .zero]) [])))))] }

theorem constantConditionEliminatesBranch_ok : meets constantConditionEliminatesBranch [
    .path (chs "m.a") (chs "m.b") true, .kinds .conditional 0] = true := by
  decide +kernel

/-- Chain of assignments through a procedural loop. tests/unit/LoopTests.cpp:3-38. -/
def chainOfAssignmentsThroughAProcedural : Design' :=
  { sigs := [⟨chs "a", 1, true, chs "m.a"⟩, ⟨chs "b", 1, true, chs "m.b"⟩, ⟨chs "p", 4, false, chs "m.p"⟩]
    tree := [.inst false (chs "m") (chs "m") [.port ⟨100, some 0, .input, [⟨0, 0, true⟩]⟩, .port ⟨101, some 1,
        .output, [⟨0, 0, false⟩]⟩, blk 0, blk 1]
        []]
    blocks := [cont (.lsp 1 ⟨some 1, 0, 0⟩ []) (.lsp 1 ⟨some 2, 3, 0⟩ []),
      .procedural .alwaysComb .other (sq [ba (.lsp 1 ⟨some 2, 0, 0⟩ []) (.lsp 1 ⟨some 0, 0, 0⟩ []),
          .choose true .skip (sq [ba (.lsp 1 ⟨some 2, 1, 0⟩ []) (.lsp 1 ⟨some 2, 0, 0⟩ []), ba (.lsp 1 ⟨some 2, 2,
          0⟩ []) (.lsp 1 ⟨some 2, 1, 0⟩ []), ba (.lsp 1 ⟨some 2, 3, 0⟩ []) (.lsp 1 ⟨some 2, 2, 0⟩ [])])])] }

theorem chainOfAssignmentsThroughAProcedural_ok : meets chainOfAssignmentsThroughAProcedural [
    .path (chs "m.a") (chs "m.b") true] = true := by
  decide +kernel

/-- Nested for loops. tests/unit/LoopTests.cpp:40-54. -/
def nestedForLoops : Design' :=
  { sigs := [⟨chs "a", 4, true, chs "m.a"⟩, ⟨chs "b", 4, true, chs "m.b"⟩, ⟨chs "t", 4, false, chs "m.t"⟩]
    tree := [.inst false (chs "m") (chs "m") [.port ⟨100, some 0, .input, [⟨0, 3, true⟩]⟩, .port ⟨101, some 1,
        .output, [⟨0, 3, false⟩]⟩, blk 0, blk 1]
        []]
    blocks := [.procedural .alwaysComb .other (.choose true .skip (sq [.choose true .skip (sq [ba (.lsp 1 ⟨some 2,
        0, 0⟩ []) (.lsp 1 ⟨some 0, 0, 0⟩ []), ba (.lsp 1 ⟨some 2, 1, 0⟩ []) (.lsp 1 ⟨some 0, 1, 0⟩ [])]),
        .choose true .skip (sq [ba (.lsp 1 ⟨some 2, 2, 0⟩ []) (.lsp 1 ⟨some 0, 2, 0⟩ []), ba (.lsp 1 ⟨some 2, 3,
        0⟩ []) (.lsp 1 ⟨some 0, 3, 0⟩ [])])])),
      cont (.lsp 4 ⟨some 1, 0, 3⟩ []) (.lsp 4 ⟨some 2, 0, 3⟩ [])] }

theorem nestedForLoops_ok : meets nestedForLoops [
    .path (chs "m.a") (chs "m.b") true] = true := by
  decide +kernel

/-- Loop body depends on external signal. tests/unit/LoopTests.cpp:56-74. -/
def loopBodyDependsOnExternalSignal : Design' :=
  { sigs := [⟨chs "a", 4, true, chs "m.a"⟩, ⟨chs "sel", 1, true, chs "m.sel"⟩, ⟨chs "b", 4, true, chs "m.b"⟩,
      ⟨chs "t", 4, false, chs "m.t"⟩]
    tree := [.inst false (chs "m") (chs "m") [.port ⟨100, some 0, .input, [⟨0, 3, true⟩]⟩, .port ⟨101, some 1,
        .input, [⟨0, 0, true⟩]⟩, .port ⟨102, some 2, .output, [⟨0, 3, false⟩]⟩, blk 0, blk 1]
        []]
    blocks := [.procedural .alwaysComb .other (.choose true .skip (sq [ite (.lsp 1 ⟨some 1, 0,
        0⟩ []) (ba (.lsp 1 ⟨some 3, 0, 0⟩ []) (.lsp 1 ⟨some 0, 0, 0⟩ [])) (ba (.lsp 1 ⟨some 3, 0,
        0⟩ []) (.other 1 (some [.zero]) [])), ite (.lsp 1 ⟨some 1, 0, 0⟩ []) (ba (.lsp 1 ⟨some 3, 1,
        0⟩ []) (.lsp 1 ⟨some 0, 1, 0⟩ [])) (ba (.lsp 1 ⟨some 3, 1, 0⟩ []) (.other 1 (some [.zero]) [])),
        ite (.lsp 1 ⟨some 1, 0, 0⟩ []) (ba (.lsp 1 ⟨some 3, 2, 0⟩ []) (.lsp 1 ⟨some 0, 2,
        0⟩ [])) (ba (.lsp 1 ⟨some 3, 2, 0⟩ []) (.other 1 (some [.zero]) [])), ite (.lsp 1 ⟨some 1, 0,
        0⟩ []) (ba (.lsp 1 ⟨some 3, 3, 0⟩ []) (.lsp 1 ⟨some 0, 3, 0⟩ [])) (ba (.lsp 1 ⟨some 3, 3,
        0⟩ []) (.other 1 (some [.zero]) []))])),
      cont (.lsp 4 ⟨some 2, 0, 3⟩ []) (.lsp 4 ⟨some 3, 0, 3⟩ [])] }

theorem loopBodyDependsOnExternalSignal_ok : meets loopBodyDependsOnExternalSignal [
    .path (chs "m.a") (chs "m.b") true, .path (chs "m.sel") (chs "m.b") true] = true := by
  decide +kernel

/-- While loop with assignments. tests/unit/LoopTests.cpp:76-96. -/
def whileLoopWithAssignments : Design' :=
  { sigs := [⟨chs "a", 8, true, chs "m.a"⟩, ⟨chs "b", 8, true, chs "m.b"⟩, ⟨chs "t", 8, false, chs "m.t"⟩,
      ⟨chs "i", 32, false, chs "m.i"⟩]
    tree := [.inst false (chs "m") (chs "m") [.port ⟨100, some 0, .input, [⟨0, 7, true⟩]⟩, .port ⟨101, some 1,
        .output, [⟨0, 7, false⟩]⟩, blk 0, blk 1]
        []]
    blocks := [.procedural .alwaysComb .other (sq [.skip, ba (.lsp 32 ⟨some 3, 0, 31⟩ []) (.other 32 (some [.zero,
        .zero, .zero, .zero, .zero, .zero, .zero, .zero, .zero, .zero, .zero, .zero, .zero, .zero, .zero, .zero,
        .zero, .zero, .zero, .zero, .zero, .zero, .zero, .zero, .zero, .zero, .zero, .zero, .zero, .zero, .zero,
        .zero]) []), ba (.lsp 8 ⟨some 2, 0, 7⟩ []) (.other 8 (some [.zero, .zero, .zero, .zero, .zero, .zero,
        .zero, .zero]) []), sq [.eval (.other 1 none [⟨some 3, 0, 31⟩]),
        .choose true .skip (.seq (sq [ba (.lsp 1 ⟨some 2, 0, 7⟩ [.lsp 32 ⟨some 3, 0, 31⟩ []]) (.lsp 1 ⟨some 0, 0,
        7⟩ [.lsp 32 ⟨some 3, 0, 31⟩ []]), ba (.lsp 32 ⟨some 3, 0, 31⟩ []) (.other 32 none [⟨some 3, 0,
        31⟩])]) .dead)]]),
      cont (.lsp 8 ⟨some 1, 0, 7⟩ []) (.lsp 8 ⟨some 2, 0, 7⟩ [])] }

theorem whileLoopWithAssignments_ok : meets whileLoopWithAssignments [
    .path (chs "m.a") (chs "m.b") false] = true := by
  decide +kernel

/-- Non-blocking assignment effect. tests/unit/NonblockingAssignmentTests.cpp:3-30. -/
def nonBlockingAssignmentEffect : Design' :=
  { sigs := [⟨chs "a", 1, true, chs "m.a"⟩, ⟨chs "b", 1, true, chs "m.b"⟩, ⟨chs "z", 1, true, chs "m.z"⟩, ⟨chs "t",
      4, false, chs "m.t"⟩]
    tree := [.inst false (chs "m") (chs "m") [.port ⟨100, some 0, .input, [⟨0, 0, true⟩]⟩, .port ⟨101, some 1,
        .input, [⟨0, 0, true⟩]⟩, .port ⟨102, some 2, .output, [⟨0, 0, false⟩]⟩, blk 0]
        []]
    blocks := [.procedural .alwaysComb .other (sq [nba (.lsp 1 ⟨some 2, 0,
        0⟩ []) (.conv 1 false none (.other 4 none [⟨some 0, 0, 0⟩, ⟨some 3, 0, 3⟩])), ba (.lsp 4 ⟨some 3, 0,
        3⟩ []) (.other 4 none [⟨some 0, 0, 0⟩, ⟨some 1, 0, 0⟩])])] }

theorem nonBlockingAssignmentEffect_ok : meets nonBlockingAssignmentEffect [
    .path (chs "m.a") (chs "m.z") true, .path (chs "m.b") (chs "m.z") true] = true := by
  decide +kernel

/-- Non-blocking assignment defers update until end of block. tests/unit/NonblockingAssignmentTests.cpp:32-48. -/
def nonBlockingAssignmentDefersUpdateUntil : Design' :=
  { sigs := [⟨chs "a", 1, true, chs "m.a"⟩, ⟨chs "b", 1, true, chs "m.b"⟩, ⟨chs "y", 1, true, chs "m.y"⟩, ⟨chs "t",
      1, false, chs "m.t"⟩]
    tree := [.inst false (chs "m") (chs "m") [.port ⟨100, some 0, .input, [⟨0, 0, true⟩]⟩, .port ⟨101, some 1,
        .input, [⟨0, 0, true⟩]⟩, .port ⟨102, some 2, .output, [⟨0, 0, false⟩]⟩, blk 0, blk 1]
        []]
    blocks := [.procedural .alwaysComb .other (sq [nba (.lsp 1 ⟨some 3, 0, 0⟩ []) (.lsp 1 ⟨some 0, 0, 0⟩ []),
        nba (.lsp 1 ⟨some 3, 0, 0⟩ []) (.lsp 1 ⟨some 1, 0, 0⟩ [])]),
      cont (.lsp 1 ⟨some 2, 0, 0⟩ []) (.lsp 1 ⟨some 3, 0, 0⟩ [])] }

theorem nonBlockingAssignmentDefersUpdateUntil_ok : meets nonBlockingAssignmentDefersUpdateUntil [
    .path (chs "m.a") (chs "m.y") false, .path (chs "m.b") (chs "m.y") true] = true := by
  decide +kernel

/-- Assigning to a variable. tests/unit/SequentialStateTests.cpp:3-24. -/
def assigningToAVariable : Design' :=
  { sigs := [⟨chs "clk", 1, true, chs "m.clk"⟩, ⟨chs "a", 1, true, chs "m.a"⟩, ⟨chs "b", 1, false, chs "m.b"⟩]
    tree := [.inst false (chs "m") (chs "m") [.port ⟨100, some 0, .input, [⟨0, 0, true⟩]⟩, .port ⟨101, some 1,
        .input, [⟨0, 0, true⟩]⟩, blk 0]
        []]
    blocks := [.procedural .alwaysFF (.timed (.signalEvent ⟨.posEdge, some 0⟩)) (nba (.lsp 1 ⟨some 2, 0,
        0⟩ []) (.lsp 1 ⟨some 1, 0, 0⟩ []))] }

theorem assigningToAVariable_ok : meets assigningToAVariable [
    .path (chs "m.a") (chs "m.b") true] = true := by
  decide +kernel

/-- Two control paths assigning to the same variable. tests/unit/SequentialStateTests.cpp:26-64. -/
def twoControlPathsAssigningToThe : Design' :=
  { sigs := [⟨chs "clk", 1, true, chs "m.clk"⟩, ⟨chs "rst", 1, true, chs "m.rst"⟩, ⟨chs "a", 1, true, chs "m.a"⟩,
      ⟨chs "b", 1, true, chs "m.b"⟩]
    tree := [.inst false (chs "m") (chs "m") [.port ⟨100, some 0, .input, [⟨0, 0, true⟩]⟩, .port ⟨101, some 1,
        .input, [⟨0, 0, true⟩]⟩, .port ⟨102, some 2, .input, [⟨0, 0, true⟩]⟩, .port ⟨103, some 3, .output, [⟨0, 0,
        false⟩]⟩, blk 0]
        []]
    blocks := [.procedural .alwaysFF (.timed (.eventList [some ⟨.posEdge, some 0⟩, some ⟨.posEdge,
        some 1⟩])) (ite (.lsp 1 ⟨some 1, 0, 0⟩ []) (nba (.lsp 1 ⟨some 3, 0,
        0⟩ []) (.other 1 (some [.zero]) [])) (nba (.lsp 1 ⟨some 3, 0, 0⟩ []) (.lsp 1 ⟨some 2, 0, 0⟩ [])))] }

theorem twoControlPathsAssigningToThe_ok : meets twoControlPathsAssigningToThe [
    .path (chs "m.a") (chs "m.b") true] = true := by
  decide +kernel

/-- With a self-referential assignment. tests/unit/SequentialStateTests.cpp:66-105. -/
def withASelfReferentialAssignment : Design' :=
  { sigs := [⟨chs "clk", 1, true, chs "m.clk"⟩, ⟨chs "rst", 1, true, chs "m.rst"⟩, ⟨chs "a", 1, true, chs "m.a"⟩,
      ⟨chs "b", 1, true, chs "m.b"⟩]
    tree := [.inst false (chs "m") (chs "m") [.port ⟨100, some 0, .input, [⟨0, 0, true⟩]⟩, .port ⟨101, some 1,
        .input, [⟨0, 0, true⟩]⟩, .port ⟨102, some 2, .input, [⟨0, 0, true⟩]⟩, .port ⟨103, some 3, .output, [⟨0, 0,
        false⟩]⟩, blk 0]
        []]
    blocks := [.procedural .alwaysFF (.timed (.eventList [some ⟨.posEdge, some 0⟩, some ⟨.posEdge,
        some 1⟩])) (ite (.lsp 1 ⟨some 1, 0, 0⟩ []) (nba (.lsp 1 ⟨some 3, 0,
        0⟩ []) (.other 1 (some [.zero]) [])) (nba (.lsp 1 ⟨some 3, 0, 0⟩ []) (.other 1 none [⟨some 3, 0, 0⟩,
        ⟨some 2, 0, 0⟩])))] }

theorem withASelfReferentialAssignment_ok : meets withASelfReferentialAssignment [
    .path (chs "m.a") (chs "m.b") true, .path (chs "m.rst") (chs "m.b") true] = true := by
  decide +kernel

/-- Combinatorial path through sequential state. tests/unit/SequentialStateTests.cpp:107-119. -/
def combinatorialPathThroughSequentialState : Design' :=
  { sigs := [⟨chs "clk", 1, true, chs "m.clk"⟩, ⟨chs "a", 1, true, chs "m.a"⟩, ⟨chs "b", 1, true, chs "m.b"⟩]
    tree := [.inst false (chs "m") (chs "m") [.port ⟨100, some 0, .input, [⟨0, 0, true⟩]⟩, .port ⟨101, some 1,
        .input, [⟨0, 0, true⟩]⟩, .port ⟨102, some 2, .output, [⟨0, 0, false⟩]⟩, blk 0]
        []]
    blocks := [.procedural .alwaysFF (.timed (.signalEvent ⟨.posEdge, some 0⟩)) (nba (.lsp 1 ⟨some 2, 0,
        0⟩ []) (.lsp 1 ⟨some 1, 0, 0⟩ []))] }

theorem combinatorialPathThroughSequentialState_ok : meets combinatorialPathThroughSequentialState [
    .path (chs "m.a") (chs "m.b") true, .comb (chs "m.a") (chs "m.b") false] = true := by
  decide +kernel

/-- Combinatorial path with mixed logic. tests/unit/SequentialStateTests.cpp:121-136. -/
def combinatorialPathWithMixedLogic : Design' :=
  { sigs := [⟨chs "clk", 1, true, chs "m.clk"⟩, ⟨chs "a", 1, true, chs "m.a"⟩, ⟨chs "x", 1, true, chs "m.x"⟩,
      ⟨chs "y", 1, true, chs "m.y"⟩]
    tree := [.inst false (chs "m") (chs "m") [.port ⟨100, some 0, .input, [⟨0, 0, true⟩]⟩, .port ⟨101, some 1,
        .input, [⟨0, 0, true⟩]⟩, .port ⟨102, some 2, .output, [⟨0, 0, false⟩]⟩, .port ⟨103, some 3, .output, [⟨0,
        0, false⟩]⟩, blk 0, blk 1]
        []]
    blocks := [cont (.lsp 1 ⟨some 2, 0, 0⟩ []) (.lsp 1 ⟨some 1, 0, 0⟩ []),
      .procedural .alwaysFF (.timed (.signalEvent ⟨.posEdge, some 0⟩)) (nba (.lsp 1 ⟨some 3, 0,
          0⟩ []) (.lsp 1 ⟨some 1, 0, 0⟩ []))] }

theorem combinatorialPathWithMixedLogic_ok : meets combinatorialPathWithMixedLogic [
    .path (chs "m.a") (chs "m.x") true, .path (chs "m.a") (chs "m.y") true, .comb (chs "m.a") (chs "m.x") true,
    .comb (chs "m.a") (chs "m.y") false] = true := by
  decide +kernel

/-- Combinatorial path with reset and sequential logic. tests/unit/SequentialStateTests.cpp:138-158. -/
def combinatorialPathWithResetAndSequential : Design' :=
  { sigs := [⟨chs "clk", 1, true, chs "m.clk"⟩, ⟨chs "rst", 1, true, chs "m.rst"⟩, ⟨chs "a", 1, true, chs "m.a"⟩,
      ⟨chs "b", 1, true, chs "m.b"⟩, ⟨chs "c", 1, true, chs "m.c"⟩]
    tree := [.inst false (chs "m") (chs "m") [.port ⟨100, some 0, .input, [⟨0, 0, true⟩]⟩, .port ⟨101, some 1,
        .input, [⟨0, 0, true⟩]⟩, .port ⟨102, some 2, .input, [⟨0, 0, true⟩]⟩, .port ⟨103, some 3, .output, [⟨0, 0,
        false⟩]⟩, .port ⟨104, some 4, .output, [⟨0, 0, false⟩]⟩, blk 0, blk 1]
        []]
    blocks := [.procedural .alwaysFF (.timed (.eventList [some ⟨.posEdge, some 0⟩, some ⟨.posEdge,
        some 1⟩])) (ite (.lsp 1 ⟨some 1, 0, 0⟩ []) (nba (.lsp 1 ⟨some 3, 0,
        0⟩ []) (.other 1 (some [.zero]) [])) (nba (.lsp 1 ⟨some 3, 0, 0⟩ []) (.lsp 1 ⟨some 2, 0, 0⟩ []))),
      cont (.lsp 1 ⟨some 4, 0, 0⟩ []) (.lsp 1 ⟨some 1, 0, 0⟩ [])] }

theorem combinatorialPathWithResetAndSequential_ok : meets combinatorialPathWithResetAndSequential [
    .path (chs "m.a") (chs "m.b") true, .path (chs "m.rst") (chs "m.b") true, .path (chs "m.rst") (chs "m.c") true,
    .comb (chs "m.a") (chs "m.b") false, .comb (chs "m.rst") (chs "m.b") false,
        .comb (chs "m.rst") (chs "m.c") true] = true := by
  decide +kernel

/-- Reference to a previous variable definition. tests/unit/SequentialStateTests.cpp:160-253. -/
def referenceToAPreviousVariableDefinition : Design' :=
  { sigs := [⟨chs "clk", 1, true, chs "m.clk"⟩, ⟨chs "rst", 1, true, chs "m.rst"⟩, ⟨chs "foo", 1, true,
      chs "m.foo"⟩, ⟨chs "ready", 1, true, chs "m.ready"⟩, ⟨chs "foo_q", 1, true, chs "m.foo_q"⟩, ⟨chs "valid_q",
      1, false, chs "m.valid_q"⟩]
    tree := [.inst false (chs "m") (chs "m") [.port ⟨100, some 0, .input, [⟨0, 0, true⟩]⟩, .port ⟨101, some 1,
        .input, [⟨0, 0, true⟩]⟩, .port ⟨102, some 2, .input, [⟨0, 0, true⟩]⟩, .port ⟨103, some 3, .input, [⟨0, 0,
        true⟩]⟩, .port ⟨104, some 4, .output, [⟨0, 0, false⟩]⟩, blk 0]
        []]
    blocks := [.procedural .always (.timed (.signalEvent ⟨.posEdge, some 0⟩)) (ite (.lsp 1 ⟨some 1, 0,
        0⟩ []) (sq [nba (.lsp 1 ⟨some 4, 0, 0⟩ []) (.conv 1 false (some [.zero]) (.other 32 (some [.zero, .zero,
        .zero, .zero, .zero, .zero, .zero, .zero, .zero, .zero, .zero, .zero, .zero, .zero, .zero, .zero, .zero,
        .zero, .zero, .zero, .zero, .zero, .zero, .zero, .zero, .zero, .zero, .zero, .zero, .zero, .zero,
        .zero]) [])), nba (.lsp 1 ⟨some 5, 0, 0⟩ []) (.conv 1 false (some [.zero]) (.other 32 (some [.zero, .zero,
        .zero, .zero, .zero, .zero, .zero, .zero, .zero, .zero, .zero, .zero, .zero, .zero, .zero, .zero, .zero,
        .zero, .zero, .zero, .zero, .zero, .zero, .zero, .zero, .zero, .zero, .zero, .zero, .zero, .zero,
        .zero]) []))]) (sq [ite (.other 1 none [⟨some 5, 0, 0⟩]) (nba (.lsp 1 ⟨some 4, 0, 0⟩ []) (.lsp 1 ⟨some 2,
        0, 0⟩ [])) (.skip), nba (.lsp 1 ⟨some 5, 0, 0⟩ []) (.lsp 1 ⟨some 3, 0, 0⟩ [])]))] }

theorem referenceToAPreviousVariableDefinition_ok : meets referenceToAPreviousVariableDefinition [
    .path (chs "m.foo") (chs "m.foo_q") true, .path (chs "m.ready") (chs "m.foo_q") true,
    .path (chs "m.ready") (chs "m.valid_q") true, .path (chs "m.rst") (chs "m.valid_q") true,
    .path (chs "m.rst") (chs "m.foo_q") true] = true := by
  decide +kernel

/-- Sensitivity: posedge clk drives a single PosEdge edge into State. tests/unit/SequentialStateTests.cpp:255-268. -/
def sensitivityPosedgeClkDrivesASingle : Design' :=
  { sigs := [⟨chs "clk", 1, true, chs "m.clk"⟩, ⟨chs "a", 1, true, chs "m.a"⟩, ⟨chs "b", 1, true, chs "m.b"⟩]
    tree := [.inst false (chs "m") (chs "m") [.port ⟨100, some 0, .input, [⟨0, 0, true⟩]⟩, .port ⟨101, some 1,
        .input, [⟨0, 0, true⟩]⟩, .port ⟨102, some 2, .output, [⟨0, 0, false⟩]⟩, blk 0]
        []]
    blocks := [.procedural .alwaysFF (.timed (.signalEvent ⟨.posEdge, some 0⟩)) (nba (.lsp 1 ⟨some 2, 0,
        0⟩ []) (.lsp 1 ⟨some 1, 0, 0⟩ []))] }

theorem sensitivityPosedgeClkDrivesASingle_ok : meets sensitivityPosedgeClkDrivesASingle [
    .clocked (chs "m.clk") (chs "m.b") .posEdge 1, .clocked (chs "m.clk") (chs "m.b") .none 0] = true := by
  decide +kernel

/-- Sensitivity: posedge clk + negedge rst_n produces both edges. tests/unit/SequentialStateTests.cpp:270-286. -/
def sensitivityPosedgeClkNegedgeRstN : Design' :=
  { sigs := [⟨chs "clk", 1, true, chs "m.clk"⟩, ⟨chs "rst_n", 1, true, chs "m.rst_n"⟩, ⟨chs "a", 1, true,
      chs "m.a"⟩, ⟨chs "b", 1, true, chs "m.b"⟩]
    tree := [.inst false (chs "m") (chs "m") [.port ⟨100, some 0, .input, [⟨0, 0, true⟩]⟩, .port ⟨101, some 1,
        .input, [⟨0, 0, true⟩]⟩, .port ⟨102, some 2, .input, [⟨0, 0, true⟩]⟩, .port ⟨103, some 3, .output, [⟨0, 0,
        false⟩]⟩, blk 0]
        []]
    blocks := [.procedural .alwaysFF (.timed (.eventList [some ⟨.posEdge, some 0⟩, some ⟨.negEdge,
        some 1⟩])) (ite (.other 1 none [⟨some 1, 0, 0⟩]) (nba (.lsp 1 ⟨some 3, 0,
        0⟩ []) (.other 1 (some [.zero]) [])) (nba (.lsp 1 ⟨some 3, 0, 0⟩ []) (.lsp 1 ⟨some 2, 0, 0⟩ [])))] }

theorem sensitivityPosedgeClkNegedgeRstN_ok : meets sensitivityPosedgeClkNegedgeRstN [
    .clocked (chs "m.clk") (chs "m.b") .posEdge 1, .clocked (chs "m.rst_n") (chs "m.b") .negEdge 1] = true := by
  decide +kernel

/-- Sensitivity: gated clock fans in through its combinational driver. tests/unit/SequentialStateTests.cpp:288-321. -/
def sensitivityGatedClockFansInThrough : Design' :=
  { sigs := [⟨chs "clk", 1, true, chs "m.clk"⟩, ⟨chs "en", 1, true, chs "m.en"⟩, ⟨chs "a", 1, true, chs "m.a"⟩,
      ⟨chs "b", 1, true, chs "m.b"⟩, ⟨chs "gclk", 1, false, chs "m.gclk"⟩]
    tree := [.inst false (chs "m") (chs "m") [.port ⟨100, some 0, .input, [⟨0, 0, true⟩]⟩, .port ⟨101, some 1,
        .input, [⟨0, 0, true⟩]⟩, .port ⟨102, some 2, .input, [⟨0, 0, true⟩]⟩, .port ⟨103, some 3, .output, [⟨0, 0,
        false⟩]⟩, blk 0, blk 1]
        []]
    blocks := [cont (.lsp 1 ⟨some 4, 0, 0⟩ []) (.other 1 none [⟨some 0, 0, 0⟩, ⟨some 1, 0, 0⟩]),
      .procedural .alwaysFF (.timed (.signalEvent ⟨.posEdge, some 4⟩)) (nba (.lsp 1 ⟨some 3, 0,
          0⟩ []) (.lsp 1 ⟨some 2, 0, 0⟩ []))] }

theorem sensitivityGatedClockFansInThrough_ok : meets sensitivityGatedClockFansInThrough [
    .path (chs "m.clk") (chs "m.b") true, .path (chs "m.en") (chs "m.b") true, .path (chs "m.a") (chs "m.b") true,
    .someClock (chs "m.b") .posEdge] = true := by
  decide +kernel

/-- getSensitivity: returns clk/rst for State node. tests/unit/SequentialStateTests.cpp:323-362. -/
def getsensitivityReturnsClkRstForState : Design' :=
  { sigs := [⟨chs "clk", 1, true, chs "m.clk"⟩, ⟨chs "rst_n", 1, true, chs "m.rst_n"⟩, ⟨chs "a", 1, true,
      chs "m.a"⟩, ⟨chs "b", 1, true, chs "m.b"⟩]
    tree := [.inst false (chs "m") (chs "m") [.port ⟨100, some 0, .input, [⟨0, 0, true⟩]⟩, .port ⟨101, some 1,
        .input, [⟨0, 0, true⟩]⟩, .port ⟨102, some 2, .input, [⟨0, 0, true⟩]⟩, .port ⟨103, some 3, .output, [⟨0, 0,
        false⟩]⟩, blk 0]
        []]
    blocks := [.procedural .alwaysFF (.timed (.eventList [some ⟨.posEdge, some 0⟩, some ⟨.negEdge,
        some 1⟩])) (ite (.other 1 none [⟨some 1, 0, 0⟩]) (nba (.lsp 1 ⟨some 3, 0,
        0⟩ []) (.other 1 (some [.zero]) [])) (nba (.lsp 1 ⟨some 3, 0, 0⟩ []) (.lsp 1 ⟨some 2, 0, 0⟩ [])))] }

theorem getsensitivityReturnsClkRstForState_ok : meets getsensitivityReturnsClkRstForState [
    .stateSources (chs "m.b") [(chs "m.clk", .posEdge), (chs "m.rst_n", .negEdge)]] = true := by
  decide +kernel

/-- getSensitivity: upstream comb node inherits sensitivity from the State it feeds. tests/unit/SequentialStateTests.cpp:364-386. -/
def getsensitivityUpstreamCombNodeInheritsSensitivity : Design' :=
  { sigs := [⟨chs "clk", 1, true, chs "m.clk"⟩, ⟨chs "a", 1, true, chs "m.a"⟩, ⟨chs "b", 1, true, chs "m.b"⟩,
      ⟨chs "q", 1, true, chs "m.q"⟩, ⟨chs "tmp", 1, false, chs "m.tmp"⟩]
    tree := [.inst false (chs "m") (chs "m") [.port ⟨100, some 0, .input, [⟨0, 0, true⟩]⟩, .port ⟨101, some 1,
        .input, [⟨0, 0, true⟩]⟩, .port ⟨102, some 2, .input, [⟨0, 0, true⟩]⟩, .port ⟨103, some 3, .output, [⟨0, 0,
        false⟩]⟩, blk 0, blk 1]
        []]
    blocks := [cont (.lsp 1 ⟨some 4, 0, 0⟩ []) (.other 1 none [⟨some 1, 0, 0⟩, ⟨some 2, 0, 0⟩]),
      .procedural .alwaysFF (.timed (.signalEvent ⟨.posEdge, some 0⟩)) (nba (.lsp 1 ⟨some 3, 0,
          0⟩ []) (.lsp 1 ⟨some 4, 0, 0⟩ []))] }

theorem getsensitivityUpstreamCombNodeInheritsSensitivity_ok : meets getsensitivityUpstreamCombNodeInheritsSensitivity [
    .sources (chs "m.a") [(chs "m.clk", .posEdge)]] = true := by
  decide +kernel

/-- getSensitivity: pure combinational node returns empty. tests/unit/SequentialStateTests.cpp:388-399. -/
def getsensitivityPureCombinationalNodeReturnsEmpty : Design' :=
  { sigs := [⟨chs "a", 1, true, chs "m.a"⟩, ⟨chs "b", 1, true, chs "m.b"⟩, ⟨chs "z", 1, true, chs "m.z"⟩]
    tree := [.inst false (chs "m") (chs "m") [.port ⟨100, some 0, .input, [⟨0, 0, true⟩]⟩, .port ⟨101, some 1,
        .input, [⟨0, 0, true⟩]⟩, .port ⟨102, some 2, .output, [⟨0, 0, false⟩]⟩, blk 0]
        []]
    blocks := [cont (.lsp 1 ⟨some 2, 0, 0⟩ []) (.other 1 none [⟨some 0, 0, 0⟩, ⟨some 1, 0, 0⟩])] }

theorem getsensitivityPureCombinationalNodeReturnsEmpty_ok : meets getsensitivityPureCombinationalNodeReturnsEmpty [
    .sources (chs "m.a") []] = true := by
  decide +kernel

/-- getSensitivity: dedupes when one comb node feeds two flops on the same clock. tests/unit/SequentialStateTests.cpp:401-422. -/
def getsensitivityDedupesWhenOneCombNode : Design' :=
  { sigs := [⟨chs "clk", 1, true, chs "m.clk"⟩, ⟨chs "a", 1, true, chs "m.a"⟩, ⟨chs "q1", 1, true, chs "m.q1"⟩,
      ⟨chs "q2", 1, true, chs "m.q2"⟩, ⟨chs "tmp", 1, false, chs "m.tmp"⟩]
    tree := [.inst false (chs "m") (chs "m") [.port ⟨100, some 0, .input, [⟨0, 0, true⟩]⟩, .port ⟨101, some 1,
        .input, [⟨0, 0, true⟩]⟩, .port ⟨102, some 2, .output, [⟨0, 0, false⟩]⟩, .port ⟨103, some 3, .output, [⟨0,
        0, false⟩]⟩, blk 0, blk 1]
        []]
    blocks := [cont (.lsp 1 ⟨some 4, 0, 0⟩ []) (.other 1 none [⟨some 1, 0, 0⟩]),
      .procedural .alwaysFF (.timed (.signalEvent ⟨.posEdge, some 0⟩)) (sq [nba (.lsp 1 ⟨some 2, 0,
          0⟩ []) (.lsp 1 ⟨some 4, 0, 0⟩ []), nba (.lsp 1 ⟨some 3, 0, 0⟩ []) (.lsp 1 ⟨some 4, 0, 0⟩ [])])] }

theorem getsensitivityDedupesWhenOneCombNode_ok : meets getsensitivityDedupesWhenOneCombNode [
    .sources (chs "m.a") [(chs "m.clk", .posEdge)]] = true := by
  decide +kernel

/-- Sensitivity: combinational always with no edges has no PosEdge and no State node. tests/unit/SequentialStateTests.cpp:424-443. -/
def sensitivityCombinationalAlwaysWithNoEdges : Design' :=
  { sigs := [⟨chs "x", 1, true, chs "m.x"⟩, ⟨chs "y", 1, true, chs "m.y"⟩, ⟨chs "z", 1, true, chs "m.z"⟩]
    tree := [.inst false (chs "m") (chs "m") [.port ⟨100, some 0, .input, [⟨0, 0, true⟩]⟩, .port ⟨101, some 1,
        .input, [⟨0, 0, true⟩]⟩, .port ⟨102, some 2, .output, [⟨0, 0, false⟩]⟩, blk 0]
        []]
    blocks := [.procedural .always (.timed (.eventList [some ⟨.none, some 0⟩, some ⟨.none,
        some 1⟩])) (ba (.lsp 1 ⟨some 2, 0, 0⟩ []) (.other 1 none [⟨some 0, 0, 0⟩, ⟨some 1, 0, 0⟩]))] }

theorem sensitivityCombinationalAlwaysWithNoEdges_ok : meets sensitivityCombinationalAlwaysWithNoEdges [
    .path (chs "m.x") (chs "m.z") true, .path (chs "m.y") (chs "m.z") true, .noClock] = true := by
  decide +kernel

/-- Empty module. tests/unit/MiscTests.cpp:3-11. -/
def emptyModule : Design' :=
  { sigs := []
    tree := [.inst false (chs "m") (chs "m") []
        []]
    blocks := [] }

theorem emptyModule_ok : meets emptyModule [
    .nodes 0, .noEdges] = true := by
  decide +kernel

/-- Passthrough module. tests/unit/MiscTests.cpp:13-30. -/
def passthroughModule : Design' :=
  { sigs := [⟨chs "a", 1, true, chs "m.a"⟩, ⟨chs "b", 1, true, chs "m.b"⟩]
    tree := [.inst false (chs "m") (chs "m") [.port ⟨100, some 0, .input, [⟨0, 0, true⟩]⟩, .port ⟨101, some 1,
        .output, [⟨0, 0, false⟩]⟩, blk 0]
        []]
    blocks := [cont (.lsp 1 ⟨some 1, 0, 0⟩ []) (.lsp 1 ⟨some 0, 0, 0⟩ [])] }

theorem passthroughModule_ok : meets passthroughModule [
    .path (chs "m.a") (chs "m.b") true] = true := by
  decide +kernel

/-- Module with out-of-order dependencies. tests/unit/MiscTests.cpp:32-53. -/
def moduleWithOutOfOrderDependencies : Design' :=
  { sigs := [⟨chs "a", 1, true, chs "m.a"⟩, ⟨chs "b", 1, true, chs "m.b"⟩, ⟨chs "temp", 1, false, chs "m.temp"⟩]
    tree := [.inst false (chs "m") (chs "m") [.port ⟨100, some 0, .input, [⟨0, 0, true⟩]⟩, .port ⟨101, some 1,
        .output, [⟨0, 0, false⟩]⟩, blk 0, blk 1]
        []]
    blocks := [cont (.lsp 1 ⟨some 1, 0, 0⟩ []) (.lsp 1 ⟨some 2, 0, 0⟩ []),
      cont (.lsp 1 ⟨some 2, 0, 0⟩ []) (.lsp 1 ⟨some 0, 0, 0⟩ [])] }

theorem moduleWithOutOfOrderDependencies_ok : meets moduleWithOutOfOrderDependencies [
    .path (chs "m.a") (chs "m.b") true] = true := by
  decide +kernel

/-- Chained assignments. tests/unit/MiscTests.cpp:55-69. -/
def chainedAssignments : Design' :=
  { sigs := [⟨chs "a", 1, true, chs "m.a"⟩, ⟨chs "b", 1, true, chs "m.b"⟩, ⟨chs "y", 1, true, chs "m.y"⟩, ⟨chs "t",
      1, false, chs "m.t"⟩, ⟨chs "u", 1, false, chs "m.u"⟩]
    tree := [.inst false (chs "m") (chs "m") [.port ⟨100, some 0, .input, [⟨0, 0, true⟩]⟩, .port ⟨101, some 1,
        .input, [⟨0, 0, true⟩]⟩, .port ⟨102, some 2, .output, [⟨0, 0, false⟩]⟩, blk 0, blk 1]
        []]
    blocks := [.procedural .alwaysComb .other (sq [ba (.lsp 1 ⟨some 3, 0, 0⟩ []) (.lsp 1 ⟨some 0, 0, 0⟩ []),
        ba (.lsp 1 ⟨some 4, 0, 0⟩ []) (.lsp 1 ⟨some 3, 0, 0⟩ [])]),
      cont (.lsp 1 ⟨some 2, 0, 0⟩ []) (.lsp 1 ⟨some 4, 0, 0⟩ [])] }

theorem chainedAssignments_ok : meets chainedAssignments [
    .path (chs "m.a") (chs "m.y") true] = true := by
  decide +kernel

/-- Chain of dependencies though continuous assignments. tests/unit/MiscTests.cpp:108-135. -/
def chainOfDependenciesThoughContinuousAssignments : Design' :=
  { sigs := [⟨chs "a", 1, true, chs "m.a"⟩, ⟨chs "b", 1, true, chs "m.b"⟩, ⟨chs "pipe", 3, false, chs "m.pipe"⟩]
    tree := [.inst false (chs "m") (chs "m") [.port ⟨100, some 0, .input, [⟨0, 0, true⟩]⟩, .port ⟨101, some 1,
        .output, [⟨0, 0, false⟩]⟩, blk 0, blk 1, blk 2, blk 3]
        []]
    blocks := [cont (.lsp 1 ⟨some 2, 0, 0⟩ []) (.lsp 1 ⟨some 0, 0, 0⟩ []),
      cont (.lsp 1 ⟨some 2, 1, 0⟩ []) (.lsp 1 ⟨some 2, 0, 0⟩ []),
      cont (.lsp 1 ⟨some 2, 2, 0⟩ []) (.lsp 1 ⟨some 2, 1, 0⟩ []),
      cont (.lsp 1 ⟨some 1, 0, 0⟩ []) (.lsp 1 ⟨some 2, 2, 0⟩ [])] }

theorem chainOfDependenciesThoughContinuousAssignments_ok : meets chainOfDependenciesThoughContinuousAssignments [
    .path (chs "m.a") (chs "m.b") true] = true := by
  decide +kernel

/-- Procedural statement with internal and external r-values. tests/unit/MiscTests.cpp:137-170. -/
def proceduralStatementWithInternalAndExternal : Design' :=
  { sigs := [⟨chs "a", 1, true, chs "m.a"⟩, ⟨chs "b", 1, true, chs "m.b"⟩, ⟨chs "c", 1, true, chs "m.c"⟩, ⟨chs "p",
      3, false, chs "m.p"⟩]
    tree := [.inst false (chs "m") (chs "m") [.port ⟨100, some 0, .input, [⟨0, 0, true⟩]⟩, .port ⟨101, some 1,
        .input, [⟨0, 0, true⟩]⟩, .port ⟨102, some 2, .output, [⟨0, 0, false⟩]⟩, blk 0, blk 1, blk 2]
        []]
    blocks := [cont (.lsp 1 ⟨some 3, 1, 0⟩ []) (.lsp 1 ⟨some 1, 0, 0⟩ []),
      .procedural .alwaysComb .other (sq [ba (.lsp 1 ⟨some 3, 0, 0⟩ []) (.lsp 1 ⟨some 0, 0, 0⟩ []),
          ba (.lsp 1 ⟨some 3, 2, 0⟩ []) (.other 1 none [⟨some 3, 0, 0⟩, ⟨some 3, 1, 0⟩])]),
      cont (.lsp 1 ⟨some 2, 0, 0⟩ []) (.lsp 1 ⟨some 3, 2, 0⟩ [])] }

theorem proceduralStatementWithInternalAndExternal_ok : meets proceduralStatementWithInternalAndExternal [
    .path (chs "m.a") (chs "m.c") true, .path (chs "m.b") (chs "m.c") true] = true := by
  decide +kernel

/-- Sequential (blocking) assignment overwrites previous value. tests/unit/MiscTests.cpp:172-188. -/
def sequentialBlockingAssignmentOverwritesPreviousValue : Design' :=
  { sigs := [⟨chs "a", 1, true, chs "m.a"⟩, ⟨chs "b", 1, true, chs "m.b"⟩, ⟨chs "y", 1, true, chs "m.y"⟩, ⟨chs "t",
      1, false, chs "m.t"⟩]
    tree := [.inst false (chs "m") (chs "m") [.port ⟨100, some 0, .input, [⟨0, 0, true⟩]⟩, .port ⟨101, some 1,
        .input, [⟨0, 0, true⟩]⟩, .port ⟨102, some 2, .output, [⟨0, 0, false⟩]⟩, blk 0, blk 1]
        []]
    blocks := [.procedural .alwaysComb .other (sq [ba (.lsp 1 ⟨some 3, 0, 0⟩ []) (.lsp 1 ⟨some 0, 0, 0⟩ []),
        ba (.lsp 1 ⟨some 3, 0, 0⟩ []) (.lsp 1 ⟨some 1, 0, 0⟩ [])]),
      cont (.lsp 1 ⟨some 2, 0, 0⟩ []) (.lsp 1 ⟨some 3, 0, 0⟩ [])] }

theorem sequentialBlockingAssignmentOverwritesPreviousValue_ok : meets sequentialBlockingAssignmentOverwritesPreviousValue [
    .path (chs "m.a") (chs "m.y") false, .path (chs "m.b") (chs "m.y") true] = true := by
  decide +kernel

/-- Overlapping assignments to same variable. tests/unit/MiscTests.cpp:190-208. -/
def overlappingAssignmentsToSameVariable : Design' :=
  { sigs := [⟨chs "a", 1, true, chs "m.a"⟩, ⟨chs "b", 1, true, chs "m.b"⟩, ⟨chs "y", 2, true, chs "m.y"⟩, ⟨chs "t",
      2, false, chs "m.t"⟩]
    tree := [.inst false (chs "m") (chs "m") [.port ⟨100, some 0, .input, [⟨0, 0, true⟩]⟩, .port ⟨101, some 1,
        .input, [⟨0, 0, true⟩]⟩, .port ⟨102, some 2, .output, [⟨0, 1, false⟩]⟩, blk 0, blk 1]
        []]
    blocks := [.procedural .alwaysComb .other (sq [ba (.lsp 2 ⟨some 3, 0,
        1⟩ []) (.conv 2 false none (.lsp 1 ⟨some 0, 0, 0⟩ [])), ba (.lsp 1 ⟨some 3, 0, 0⟩ []) (.lsp 1 ⟨some 1, 0,
        0⟩ [])]),
      cont (.lsp 2 ⟨some 2, 0, 1⟩ []) (.lsp 2 ⟨some 3, 0, 1⟩ [])] }

theorem overlappingAssignmentsToSameVariable_ok : meets overlappingAssignmentsToSameVariable [
    .path (chs "m.b") (chs "m.y") true, .path (chs "m.a") (chs "m.y") false] = true := by
  decide +kernel

/-- Uninstantiated instance is skipped. tests/unit/MiscTests.cpp:224-241. -/
def uninstantiatedInstanceIsSkipped : Design' :=
  { sigs := [⟨chs "x", 1, true, chs "m.x"⟩, ⟨chs "y", 1, true, chs "m.y"⟩]
    tree := [.inst false (chs "m") (chs "m") [.port ⟨100, some 0, .input, [⟨0, 0, true⟩]⟩, .port ⟨101, some 1,
        .output, [⟨0, 0, false⟩]⟩, blk 0, .group true []]
        []]
    blocks := [cont (.lsp 1 ⟨some 1, 0, 0⟩ []) (.lsp 1 ⟨some 0, 0, 0⟩ [])] }

theorem uninstantiatedInstanceIsSkipped_ok : meets uninstantiatedInstanceIsSkipped [
    .path (chs "m.x") (chs "m.y") true] = true := by
  decide +kernel

/-- Unreachable else branch with constant condition. tests/unit/MiscTests.cpp:259-275. -/
def unreachableElseBranchWithConstantCondition : Design' :=
  { sigs := [⟨chs "a", 1, true, chs "m.a"⟩, ⟨chs "b", 1, true, chs "m.b"⟩]
    tree := [.inst false (chs "m") (chs "m") [.port ⟨100, some 0, .input, [⟨0, 0, true⟩]⟩, .port ⟨101, some 1,
        .output, [⟨0, 0, false⟩]⟩, blk 0]
        []]
    blocks := [.procedural .alwaysComb .other (.choose true (ba (.lsp 1 ⟨some 1, 0, 0⟩ []) (.lsp 1 ⟨some 0, 0,
        0⟩ [])) (.seq .dead (ba (.lsp 1 ⟨some 1, 0, 0⟩ []) (.other 1 (some [.zero]) []))))] }

theorem unreachableElseBranchWithConstantCondition_ok : meets unreachableElseBranchWithConstantCondition [
    .path (chs "m.a") (chs "m.b") true] = true := by
  decide +kernel

/-- always_latch inferred latch. tests/unit/MiscTests.cpp:277-288. -/
def alwaysLatchInferredLatch : Design' :=
  { sigs := [⟨chs "en", 1, true, chs "m.en"⟩, ⟨chs "d", 1, true, chs "m.d"⟩, ⟨chs "q", 1, true, chs "m.q"⟩]
    tree := [.inst false (chs "m") (chs "m") [.port ⟨100, some 0, .input, [⟨0, 0, true⟩]⟩, .port ⟨101, some 1,
        .input, [⟨0, 0, true⟩]⟩, .port ⟨102, some 2, .output, [⟨0, 0, false⟩]⟩, blk 0]
        []]
    blocks := [.procedural .alwaysLatch .other (ite (.lsp 1 ⟨some 0, 0, 0⟩ []) (nba (.lsp 1 ⟨some 2, 0,
        0⟩ []) (.lsp 1 ⟨some 1, 0, 0⟩ [])) (.skip))] }

theorem alwaysLatchInferredLatch_ok : meets alwaysLatchInferredLatch [
    .path (chs "m.d") (chs "m.q") true, .path (chs "m.en") (chs "m.q") true] = true := by
  decide +kernel

/-- Non-contiguous bit selects of the same variable. tests/unit/MiscTests.cpp:290-318. -/
def nonContiguousBitSelectsOfThe : Design' :=
  { sigs := [⟨chs "a", 4, true, chs "m.a"⟩, ⟨chs "y", 1, true, chs "m.y"⟩]
    tree := [.inst false (chs "m") (chs "m") [.port ⟨100, some 0, .input, [⟨0, 3, true⟩]⟩, .port ⟨101, some 1,
        .output, [⟨0, 0, false⟩]⟩, blk 0]
        []]
    blocks := [cont (.lsp 1 ⟨some 1, 0, 0⟩ []) (.other 1 none [⟨some 0, 0, 0⟩, ⟨some 0, 3, 0⟩])] }

theorem nonContiguousBitSelectsOfThe_ok : meets nonContiguousBitSelectsOfThe [
    .path (chs "m.a") (chs "m.y") true, .edgesTo (chs "m.a") .assignment 2] = true := by
  decide +kernel

/-- Uninstantiated generate block is skipped. tests/unit/MiscTests.cpp:332-357. -/
def uninstantiatedGenerateBlockIsSkipped : Design' :=
  { sigs := [⟨chs "a", 1, true, chs "m.a"⟩, ⟨chs "y", 1, true, chs "m.y"⟩]
    tree := [.inst false (chs "m") (chs "m") [.port ⟨100, some 0, .input, [⟨0, 0, true⟩]⟩, .port ⟨101, some 1,
        .output, [⟨0, 0, false⟩]⟩, .group true [], .group false [blk 0]]
        []]
    blocks := [cont (.lsp 1 ⟨some 1, 0, 0⟩ []) (.other 1 none [⟨some 0, 0, 0⟩])] }

theorem uninstantiatedGenerateBlockIsSkipped_ok : meets uninstantiatedGenerateBlockIsSkipped [
    .path (chs "m.a") (chs "m.y") true, .kinds .assignment 1] = true := by
  decide +kernel

/-- Slang #792: bus expression in ports. tests/unit/BugTests.cpp:3-24. -/
def slang792BusExpressionInPorts : Design' :=
  { sigs := [⟨chs "in_i", 2, true, chs "test.in_i"⟩, ⟨chs "out_o", 2, true, chs "test.out_o"⟩, ⟨chs "in_s", 2,
      false, chs "test.in_s"⟩, ⟨chs "in_i", 2, true, chs "test.i_nop.in_i"⟩, ⟨chs "out_o", 2, true,
      chs "test.i_nop.out_o"⟩]
    tree := [.inst false (chs "test") (chs "test") [.port ⟨100, some 0, .input, [⟨0, 1, true⟩]⟩, .port ⟨101,
        some 1, .output, [⟨0, 1, false⟩]⟩, blk 0, .inst false (chs "nop") (chs "test.i_nop") [.port ⟨103, some 3,
        .input, [⟨0, 1, true⟩]⟩, .port ⟨104, some 4, .output, [⟨0, 0, false⟩, ⟨1, 0, false⟩]⟩, blk 1, blk 2]
        [⟨.port 103 (some 3), some (.lsp 2 ⟨some 2, 0, 1⟩ []), false, true⟩,
         ⟨.port 104 (some 4), some (.lsp 2 ⟨some 1, 0, 1⟩ []), true, true⟩]]
        []]
    blocks := [cont (.lsp 2 ⟨some 2, 0, 1⟩ []) (.lsp 2 ⟨some 0, 0, 1⟩ []),
      cont (.lsp 1 ⟨some 4, 0, 0⟩ []) (.lsp 1 ⟨some 3, 0, 0⟩ []),
      cont (.lsp 1 ⟨some 4, 1, 0⟩ []) (.lsp 1 ⟨some 3, 1, 0⟩ [])] }

theorem slang792BusExpressionInPorts_ok : meets slang792BusExpressionInPorts [
    .path (chs "test.in_i") (chs "test.out_o") true] = true := by
  decide +kernel

/-- Slang #793: port name collision with unused modules. tests/unit/BugTests.cpp:26-60. -/
def slang793PortNameCollisionWith : Design' :=
  { sigs := [⟨chs "i1", 1, true, chs "test.i1"⟩, ⟨chs "i2", 1, true, chs "test.i2"⟩, ⟨chs "o1", 1, true,
      chs "test.o1"⟩, ⟨chs "d1", 1, true, chs "test.i_cell_a.d1"⟩, ⟨chs "d2", 1, true, chs "test.i_cell_a.d2"⟩,
      ⟨chs "c", 1, true, chs "test.i_cell_a.c"⟩, ⟨chs "a", 1, true, chs "cell_b.a"⟩, ⟨chs "b", 1, true,
      chs "cell_b.b"⟩, ⟨chs "z", 1, true, chs "cell_b.z"⟩, ⟨chs "a", 1, true, chs "cell_c.a"⟩, ⟨chs "b", 1, true,
      chs "cell_c.b"⟩, ⟨chs "z", 1, true, chs "cell_c.z"⟩]
    tree := [.inst false (chs "test") (chs "test") [.port ⟨100, some 0, .input, [⟨0, 0, true⟩]⟩, .port ⟨101,
        some 1, .input, [⟨0, 0, true⟩]⟩, .port ⟨102, some 2, .output, [⟨0, 0, false⟩]⟩,
        .inst false (chs "cell_a") (chs "test.i_cell_a") [.port ⟨103, some 3, .input, [⟨0, 0, true⟩]⟩, .port ⟨104,
        some 4, .input, [⟨0, 0, true⟩]⟩, .port ⟨105, some 5, .output, [⟨0, 0, false⟩]⟩, blk 0]
        [⟨.port 103 (some 3), some (.lsp 1 ⟨some 0, 0, 0⟩ []), false, true⟩,
         ⟨.port 104 (some 4), some (.lsp 1 ⟨some 1, 0, 0⟩ []), false, true⟩,
         ⟨.port 105 (some 5), some (.lsp 1 ⟨some 2, 0, 0⟩ []), true, true⟩]]
        [],
      .inst false (chs "cell_b") (chs "cell_b") [.port ⟨106, some 6, .input, [⟨0, 0, true⟩]⟩, .port ⟨107, some 7,
          .input, [⟨0, 0, true⟩]⟩, .port ⟨108, some 8, .output, [⟨0, 0, false⟩]⟩, blk 1]
        [],
      .inst false (chs "cell_c") (chs "cell_c") [.port ⟨109, some 9, .input, [⟨0, 0, true⟩]⟩, .port ⟨110, some 10,
          .input, [⟨0, 0, true⟩]⟩, .port ⟨111, some 11, .output, [⟨0, 0, false⟩]⟩, blk 2]
        []]
    blocks := [cont (.lsp 1 ⟨some 5, 0, 0⟩ []) (.other 1 none [⟨some 3, 0, 0⟩, ⟨some 4, 0, 0⟩]),
      cont (.lsp 1 ⟨some 8, 0, 0⟩ []) (.other 1 none [⟨some 6, 0, 0⟩, ⟨some 7, 0, 0⟩]),
      cont (.lsp 1 ⟨some 11, 0, 0⟩ []) (.other 1 none [⟨some 9, 0, 0⟩, ⟨some 10, 0, 0⟩])] }

theorem slang793PortNameCollisionWith_ok : meets slang793PortNameCollisionWith [
    .path (chs "test.i1") (chs "test.o1") true] = true := by
  decide +kernel

/-- Slang #985: conditional generate blocks. tests/unit/BugTests.cpp:62-77. -/
def slang985ConditionalGenerateBlocks : Design' :=
  { sigs := [⟨chs "a", 1, true, chs "top.a"⟩, ⟨chs "b", 1, true, chs "top.b"⟩, ⟨chs "out", 1, true, chs "top.out"⟩]
    tree := [.inst false (chs "top") (chs "top") [.port ⟨100, some 0, .input, [⟨0, 0, true⟩]⟩, .port ⟨101, some 1,
        .input, [⟨0, 0, true⟩]⟩, .port ⟨102, some 2, .output, [⟨0, 0, false⟩]⟩, .group true [], .group false [blk 0]]
        []]
    blocks := [cont (.lsp 1 ⟨some 2, 0, 0⟩ []) (.lsp 1 ⟨some 1, 0, 0⟩ [])] }

theorem slang985ConditionalGenerateBlocks_ok : meets slang985ConditionalGenerateBlocks [
    .path (chs "top.b") (chs "top.out") true] = true := by
  decide +kernel

/-- Slang #919: empty port hookup. tests/unit/BugTests.cpp:79-90. -/
def slang919EmptyPortHookup : Design' :=
  { sigs := [⟨chs "i_in", 1, true, chs "top.u_foo.i_in"⟩]
    tree := [.inst false (chs "top") (chs "top") [.inst false (chs "foo") (chs "top.u_foo") [.port ⟨100, some 0,
        .input, [⟨0, 0, true⟩]⟩]
        [⟨.port 100 (some 0), none, false, true⟩]]
        []]
    blocks := [] }

theorem slang919EmptyPortHookup_ok : meets slang919EmptyPortHookup [
    .nodes 1] = true := by
  decide +kernel

/-- Slang #1124: net initialisers. tests/unit/BugTests.cpp:177-196. -/
def slang1124NetInitialisers : Design' :=
  { sigs := [⟨chs "a", 1, false, chs "t.a"⟩, ⟨chs "b", 1, false, chs "t.b"⟩, ⟨chs "c", 1, false, chs "t.c"⟩,
      ⟨chs "d", 1, false, chs "t.d"⟩, ⟨chs "e", 1, false, chs "t.e"⟩]
    tree := [.inst false (chs "t") (chs "t") [blk 0, blk 1, blk 2, blk 3]
        []]
    blocks := [.procedural .initial .other (sq [nba (.lsp 1 ⟨some 0, 0,
        0⟩ []) (.conv 1 false (some [.one]) (.other 32 (some [.one, .zero, .zero, .zero, .zero, .zero, .zero,
        .zero, .zero, .zero, .zero, .zero, .zero, .zero, .zero, .zero, .zero, .zero, .zero, .zero, .zero, .zero,
        .zero, .zero, .zero, .zero, .zero, .zero, .zero, .zero, .zero, .zero]) [])), nba (.lsp 1 ⟨some 1, 0,
        0⟩ []) (.lsp 1 ⟨some 0, 0, 0⟩ [])]),
      cont (.lsp 1 ⟨some 2, 0, 0⟩ []) (.lsp 1 ⟨some 0, 0, 0⟩ []),
      cont (.lsp 1 ⟨some 3, 0, 0⟩ []) (.lsp 1 ⟨some 0, 0, 0⟩ []),
      cont (.lsp 1 ⟨some 4, 0, 0⟩ []) (.lsp 1 ⟨some 3, 0, 0⟩ [])] }

theorem slang1124NetInitialisers_ok : meets slang1124NetInitialisers [
    .path (chs "t.a") (chs "t.d") false, .path (chs "t.d") (chs "t.e") false] = true := by
  decide +kernel

/-- Descending bit range in toPair does not assert in IntervalMap. tests/unit/BugTests.cpp:252-273. -/
def descendingBitRangeInTopairDoes : Design' :=
  { sigs := [⟨chs "a", 8, true, chs "m.a"⟩, ⟨chs "b", 8, true, chs "m.b"⟩, ⟨chs "tmp", 8, false, chs "m.tmp"⟩]
    tree := [.inst false (chs "m") (chs "m") [.port ⟨100, some 0, .input, [⟨0, 7, true⟩]⟩, .port ⟨101, some 1,
        .output, [⟨0, 7, false⟩]⟩, blk 0]
        []]
    blocks := [.procedural .alwaysComb .other (sq [ba (.lsp 8 ⟨some 2, 0, 7⟩ []) (.other 8 (some [.zero, .zero,
        .zero, .zero, .zero, .zero, .zero, .zero]) []), ba (.lsp 4 ⟨some 2, 0, 3⟩ []) (.lsp 4 ⟨some 0, 0, 3⟩ []),
        ba (.lsp 4 ⟨some 2, 4, 3⟩ []) (.lsp 4 ⟨some 0, 4, 3⟩ []), ba (.lsp 8 ⟨some 1, 0, 7⟩ []) (.lsp 8 ⟨some 2, 0,
        7⟩ [])])] }

theorem descendingBitRangeInTopairDoes_ok : meets descendingBitRangeInTopairDoes [
    .path (chs "m.a") (chs "m.b") true] = true := by
  decide +kernel

/-- Always block with non-timed body does not assert. tests/unit/BugTests.cpp:331-346. -/
def alwaysBlockWithNonTimedBody : Design' :=
  { sigs := [⟨chs "clk", 1, true, chs "m.clk"⟩, ⟨chs "a", 1, true, chs "m.a"⟩, ⟨chs "b", 1, true, chs "m.b"⟩]
    tree := [.inst false (chs "m") (chs "m") [.port ⟨100, some 0, .input, [⟨0, 0, true⟩]⟩, .port ⟨101, some 1,
        .input, [⟨0, 0, true⟩]⟩, .port ⟨102, some 2, .output, [⟨0, 0, false⟩]⟩, blk 0]
        []]
    blocks := [.procedural .always .other (sq [.skip, ba (.lsp 1 ⟨some 2, 0, 0⟩ []) (.lsp 1 ⟨some 1, 0, 0⟩ [])])] }

theorem alwaysBlockWithNonTimedBody_ok : meets alwaysBlockWithNonTimedBody [
    .path (chs "m.a") (chs "m.b") true] = true := by
  decide +kernel

/-- Issue 18: reduced test case with merging of driver ranges in loops. tests/unit/BugTests.cpp:348-372. -/
def issue18ReducedTestCaseWith : Design' :=
  { sigs := [⟨chs "read_valid", 2, true, chs "m.read_valid"⟩, ⟨chs "i_state", 4, true, chs "m.i_state"⟩,
      ⟨chs "o_state", 4, true, chs "m.o_state"⟩, ⟨chs "state_next", 4, false, chs "m.state_next"⟩]
    tree := [.inst false (chs "m") (chs "m") [.port ⟨100, some 0, .input, [⟨0, 1, true⟩]⟩, .port ⟨101, some 1,
        .input, [⟨0, 3, true⟩]⟩, .port ⟨102, some 2, .output, [⟨0, 3, false⟩]⟩, blk 0, blk 1]
        []]
    blocks := [.procedural .alwaysComb .other (sq [ba (.lsp 4 ⟨some 3, 0, 3⟩ []) (.lsp 4 ⟨some 1, 0, 3⟩ []),
        .choose true .skip (sq [.choose true .skip (sq [ite (.lsp 1 ⟨some 0, 0, 0⟩ []) (ba (.lsp 1 ⟨some 3, 0,
        0⟩ []) (.conv 1 false (some [.one]) (.other 32 (some [.one, .zero, .zero, .zero, .zero, .zero, .zero,
        .zero, .zero, .zero, .zero, .zero, .zero, .zero, .zero, .zero, .zero, .zero, .zero, .zero, .zero, .zero,
        .zero, .zero, .zero, .zero, .zero, .zero, .zero, .zero, .zero, .zero]) []))) (.skip), ite (.lsp 1 ⟨some 0,
        1, 0⟩ []) (ba (.lsp 1 ⟨some 3, 0, 0⟩ []) (.conv 1 false (some [.one]) (.other 32 (some [.one, .zero, .zero,
        .zero, .zero, .zero, .zero, .zero, .zero, .zero, .zero, .zero, .zero, .zero, .zero, .zero, .zero, .zero,
        .zero, .zero, .zero, .zero, .zero, .zero, .zero, .zero, .zero, .zero, .zero, .zero, .zero,
        .zero]) []))) (.skip)]), .choose true .skip (sq [ite (.lsp 1 ⟨some 0, 0, 0⟩ []) (ba (.lsp 1 ⟨some 3, 1,
        0⟩ []) (.conv 1 false (some [.one]) (.other 32 (some [.one, .zero, .zero, .zero, .zero, .zero, .zero,
        .zero, .zero, .zero, .zero, .zero, .zero, .zero, .zero, .zero, .zero, .zero, .zero, .zero, .zero, .zero,
        .zero, .zero, .zero, .zero, .zero, .zero, .zero, .zero, .zero, .zero]) []))) (.skip), ite (.lsp 1 ⟨some 0,
        1, 0⟩ []) (ba (.lsp 1 ⟨some 3, 1, 0⟩ []) (.conv 1 false (some [.one]) (.other 32 (some [.one, .zero, .zero,
        .zero, .zero, .zero, .zero, .zero, .zero, .zero, .zero, .zero, .zero, .zero, .zero, .zero, .zero, .zero,
        .zero, .zero, .zero, .zero, .zero, .zero, .zero, .zero, .zero, .zero, .zero, .zero, .zero,
        .zero]) []))) (.skip)]), .choose true .skip (sq [ite (.lsp 1 ⟨some 0, 0, 0⟩ []) (ba (.lsp 1 ⟨some 3, 2,
        0⟩ []) (.conv 1 false (some [.one]) (.other 32 (some [.one, .zero, .zero, .zero, .zero, .zero, .zero,
        .zero, .zero, .zero, .zero, .zero, .zero, .zero, .zero, .zero, .zero, .zero, .zero, .zero, .zero, .zero,
        .zero, .zero, .zero, .zero, .zero, .zero, .zero, .zero, .zero, .zero]) []))) (.skip), ite (.lsp 1 ⟨some 0,
        1, 0⟩ []) (ba (.lsp 1 ⟨some 3, 2, 0⟩ []) (.conv 1 false (some [.one]) (.other 32 (some [.one, .zero, .zero,
        .zero, .zero, .zero, .zero, .zero, .zero, .zero, .zero, .zero, .zero, .zero, .zero, .zero, .zero, .zero,
        .zero, .zero, .zero, .zero, .zero, .zero, .zero, .zero, .zero, .zero, .zero, .zero, .zero,
        .zero]) []))) (.skip)]), .choose true .skip (sq [ite (.lsp 1 ⟨some 0, 0, 0⟩ []) (ba (.lsp 1 ⟨some 3, 3,
        0⟩ []) (.conv 1 false (some [.one]) (.other 32 (some [.one, .zero, .zero, .zero, .zero, .zero, .zero,
        .zero, .zero, .zero, .zero, .zero, .zero, .zero, .zero, .zero, .zero, .zero, .zero, .zero, .zero, .zero,
        .zero, .zero, .zero, .zero, .zero, .zero, .zero, .zero, .zero, .zero]) []))) (.skip), ite (.lsp 1 ⟨some 0,
        1, 0⟩ []) (ba (.lsp 1 ⟨some 3, 3, 0⟩ []) (.conv 1 false (some [.one]) (.other 32 (some [.one, .zero, .zero,
        .zero, .zero, .zero, .zero, .zero, .zero, .zero, .zero, .zero, .zero, .zero, .zero, .zero, .zero, .zero,
        .zero, .zero, .zero, .zero, .zero, .zero, .zero, .zero, .zero, .zero, .zero, .zero, .zero,
        .zero]) []))) (.skip)])])]),
      cont (.lsp 4 ⟨some 2, 0, 3⟩ []) (.lsp 4 ⟨some 3, 0, 3⟩ [])] }

theorem issue18ReducedTestCaseWith_ok : meets issue18ReducedTestCaseWith [
    .path (chs "m.i_state") (chs "m.o_state") true] = true := by
  decide +kernel

/-- Assign to different slices of a vector. tests/unit/DatatypeTests.cpp:3-18. -/
def assignToDifferentSlicesOfA : Design' :=
  { sigs := [⟨chs "a", 1, true, chs "m.a"⟩, ⟨chs "b", 1, true, chs "m.b"⟩, ⟨chs "y", 2, true, chs "m.y"⟩, ⟨chs "t",
      2, false, chs "m.t"⟩]
    tree := [.inst false (chs "m") (chs "m") [.port ⟨100, some 0, .input, [⟨0, 0, true⟩]⟩, .port ⟨101, some 1,
        .input, [⟨0, 0, true⟩]⟩, .port ⟨102, some 2, .output, [⟨0, 1, false⟩]⟩, blk 0, blk 1]
        []]
    blocks := [.procedural .alwaysComb .other (sq [ba (.lsp 1 ⟨some 3, 0, 0⟩ []) (.lsp 1 ⟨some 0, 0, 0⟩ []),
        ba (.lsp 1 ⟨some 3, 1, 0⟩ []) (.lsp 1 ⟨some 1, 0, 0⟩ [])]),
      cont (.lsp 2 ⟨some 2, 0, 1⟩ []) (.lsp 2 ⟨some 3, 0, 1⟩ [])] }

theorem assignToDifferentSlicesOfA_ok : meets assignToDifferentSlicesOfA [
    .path (chs "m.a") (chs "m.y") true, .path (chs "m.b") (chs "m.y") true] = true := by
  decide +kernel

/-- Passthrough two signals via ranges in a shared vector. tests/unit/DatatypeTests.cpp:56-92. -/
def passthroughTwoSignalsViaRangesIn : Design' :=
  { sigs := [⟨chs "i_value_a", 2, true, chs "m.i_value_a"⟩, ⟨chs "i_value_b", 2, true, chs "m.i_value_b"⟩,
      ⟨chs "o_value_a", 2, true, chs "m.o_value_a"⟩, ⟨chs "o_value_b", 2, true, chs "m.o_value_b"⟩, ⟨chs "foo", 4,
      false, chs "m.foo"⟩]
    tree := [.inst false (chs "m") (chs "m") [.port ⟨100, some 0, .input, [⟨0, 1, true⟩]⟩, .port ⟨101, some 1,
        .input, [⟨0, 1, true⟩]⟩, .port ⟨102, some 2, .output, [⟨0, 1, false⟩]⟩, .port ⟨103, some 3, .output, [⟨0,
        1, false⟩]⟩, blk 0, blk 1, blk 2, blk 3]
        []]
    blocks := [cont (.lsp 2 ⟨some 4, 0, 1⟩ []) (.lsp 2 ⟨some 0, 0, 1⟩ []),
      cont (.lsp 2 ⟨some 4, 2, 1⟩ []) (.lsp 2 ⟨some 1, 0, 1⟩ []),
      cont (.lsp 2 ⟨some 2, 0, 1⟩ []) (.lsp 2 ⟨some 4, 0, 1⟩ []),
      cont (.lsp 2 ⟨some 3, 0, 1⟩ []) (.lsp 2 ⟨some 4, 2, 1⟩ [])] }

theorem passthroughTwoSignalsViaRangesIn_ok : meets passthroughTwoSignalsViaRangesIn [
    .path (chs "m.i_value_a") (chs "m.o_value_a") true,
        .path (chs "m.i_value_b") (chs "m.o_value_b") true] = true := by
  decide +kernel

/-- Passthrough two signals via a shared struct. tests/unit/DatatypeTests.cpp:94-132. -/
def passthroughTwoSignalsViaAShared : Design' :=
  { sigs := [⟨chs "i_value_a", 1, true, chs "m.i_value_a"⟩, ⟨chs "i_value_b", 1, true, chs "m.i_value_b"⟩,
      ⟨chs "o_value_a", 1, true, chs "m.o_value_a"⟩, ⟨chs "o_value_b", 1, true, chs "m.o_value_b"⟩, ⟨chs "foo", 2,
      false, chs "m.foo"⟩]
    tree := [.inst false (chs "m") (chs "m") [.port ⟨100, some 0, .input, [⟨0, 0, true⟩]⟩, .port ⟨101, some 1,
        .input, [⟨0, 0, true⟩]⟩, .port ⟨102, some 2, .output, [⟨0, 0, false⟩]⟩, .port ⟨103, some 3, .output, [⟨0,
        0, false⟩]⟩, blk 0, blk 1, blk 2, blk 3]
        []]
    blocks := [cont (.lsp 1 ⟨some 4, 1, 0⟩ []) (.lsp 1 ⟨some 0, 0, 0⟩ []),
      cont (.lsp 1 ⟨some 4, 0, 0⟩ []) (.lsp 1 ⟨some 1, 0, 0⟩ []),
      cont (.lsp 1 ⟨some 2, 0, 0⟩ []) (.lsp 1 ⟨some 4, 1, 0⟩ []),
      cont (.lsp 1 ⟨some 3, 0, 0⟩ []) (.lsp 1 ⟨some 4, 0, 0⟩ [])] }

theorem passthroughTwoSignalsViaAShared_ok : meets passthroughTwoSignalsViaAShared [
    .path (chs "m.i_value_a") (chs "m.o_value_a") true,
        .path (chs "m.i_value_b") (chs "m.o_value_b") true] = true := by
  decide +kernel

/-- Passthrough two signals via a shared union. tests/unit/DatatypeTests.cpp:134-177. -/
def passthroughTwoSignalsViaAShared2 : Design' :=
  { sigs := [⟨chs "i_value_a", 1, true, chs "m.i_value_a"⟩, ⟨chs "i_value_b", 1, true, chs "m.i_value_b"⟩,
      ⟨chs "o_value_a", 1, true, chs "m.o_value_a"⟩, ⟨chs "o_value_b", 1, true, chs "m.o_value_b"⟩,
      ⟨chs "o_value_c", 1, true, chs "m.o_value_c"⟩, ⟨chs "foo", 2, false, chs "m.foo"⟩]
    tree := [.inst false (chs "m") (chs "m") [.port ⟨100, some 0, .input, [⟨0, 0, true⟩]⟩, .port ⟨101, some 1,
        .input, [⟨0, 0, true⟩]⟩, .port ⟨102, some 2, .output, [⟨0, 0, false⟩]⟩, .port ⟨103, some 3, .output, [⟨0,
        0, false⟩]⟩, .port ⟨104, some 4, .output, [⟨0, 0, false⟩]⟩, blk 0, blk 1, blk 2, blk 3, blk 4]
        []]
    blocks := [cont (.lsp 1 ⟨some 5, 0, 0⟩ []) (.lsp 1 ⟨some 0, 0, 0⟩ []),
      cont (.lsp 1 ⟨some 5, 1, 0⟩ []) (.lsp 1 ⟨some 1, 0, 0⟩ []),
      cont (.lsp 1 ⟨some 2, 0, 0⟩ []) (.lsp 1 ⟨some 5, 0, 0⟩ []),
      cont (.lsp 1 ⟨some 3, 0, 0⟩ []) (.lsp 1 ⟨some 5, 1, 0⟩ []),
      cont (.lsp 1 ⟨some 4, 0, 0⟩ []) (.lsp 1 ⟨some 5, 0, 0⟩ [])] }

theorem passthroughTwoSignalsViaAShared2_ok : meets passthroughTwoSignalsViaAShared2 [
    .path (chs "m.i_value_a") (chs "m.o_value_a") true,
        .path (chs "m.i_value_b") (chs "m.o_value_b") true] = true := by
  decide +kernel

/-- Automatic variables are skipped. tests/unit/DatatypeTests.cpp:179-193. -/
def automaticVariablesAreSkipped : Design' :=
  { sigs := [⟨chs "a", 1, true, chs "m.a"⟩, ⟨chs "b", 1, true, chs "m.b"⟩, ⟨chs "t", 1, false, chs "m.t"⟩,
      ⟨chs "l", 32, false, chs "m.l"⟩]
    autos := [3]
    tree := [.inst false (chs "m") (chs "m") [.port ⟨100, some 0, .input, [⟨0, 0, true⟩]⟩, .port ⟨101, some 1,
        .output, [⟨0, 0, false⟩]⟩, blk 0]
        []]
    blocks := [.procedural .alwaysComb .other (sq [.skip, ba (.lsp 1 ⟨some 2, 0, 0⟩ []) (.lsp 1 ⟨some 0, 0, 0⟩ []),
        ba (.lsp 32 ⟨some 3, 0, 31⟩ []) (.conv 32 false none (.lsp 1 ⟨some 2, 0, 0⟩ [])), ba (.lsp 1 ⟨some 1, 0,
        0⟩ []) (.conv 1 false none (.lsp 32 ⟨some 3, 0, 31⟩ []))])] }

theorem automaticVariablesAreSkipped_ok : meets automaticVariablesAreSkipped [
    .path (chs "m.a") (chs "m.b") false] = true := by
  decide +kernel

/-- Passthrough via an enum-typed signal. tests/unit/DatatypeTests.cpp:195-206. -/
def passthroughViaAnEnumTypedSignal : Design' :=
  { sigs := [⟨chs "a", 2, true, chs "m.a"⟩, ⟨chs "b", 2, true, chs "m.b"⟩, ⟨chs "s", 2, false, chs "m.s"⟩]
    tree := [.inst false (chs "m") (chs "m") [.port ⟨100, some 0, .input, [⟨0, 1, true⟩]⟩, .port ⟨101, some 1,
        .output, [⟨0, 1, false⟩]⟩, blk 0, blk 1]
        []]
    blocks := [cont (.lsp 2 ⟨some 2, 0, 1⟩ []) (.lsp 2 ⟨some 0, 0, 1⟩ []),
      cont (.lsp 2 ⟨some 1, 0, 1⟩ []) (.lsp 2 ⟨some 2, 0, 1⟩ [])] }

theorem passthroughViaAnEnumTypedSignal_ok : meets passthroughViaAnEnumTypedSignal [
    .path (chs "m.a") (chs "m.b") true] = true := by
  decide +kernel

/-- Passthrough via a typedef'd packed struct. tests/unit/DatatypeTests.cpp:208-222. -/
def passthroughViaATypedefDPacked : Design' :=
  { sigs := [⟨chs "a", 2, true, chs "m.a"⟩, ⟨chs "b", 2, true, chs "m.b"⟩, ⟨chs "p", 2, false, chs "m.p"⟩]
    tree := [.inst false (chs "m") (chs "m") [.port ⟨100, some 0, .input, [⟨0, 1, true⟩]⟩, .port ⟨101, some 1,
        .output, [⟨0, 1, false⟩]⟩, blk 0, blk 1]
        []]
    blocks := [cont (.lsp 2 ⟨some 2, 0, 1⟩ []) (.lsp 2 ⟨some 0, 0, 1⟩ []),
      cont (.lsp 2 ⟨some 1, 0, 1⟩ []) (.lsp 2 ⟨some 2, 0, 1⟩ [])] }

theorem passthroughViaATypedefDPacked_ok : meets passthroughViaATypedefDPacked [
    .path (chs "m.a") (chs "m.b") true] = true := by
  decide +kernel

/-- Multi-dimensional packed array. tests/unit/DatatypeTests.cpp:224-238. -/
def multiDimensionalPackedArray : Design' :=
  { sigs := [⟨chs "a", 2, true, chs "m.a"⟩, ⟨chs "b", 2, true, chs "m.b"⟩, ⟨chs "x", 2, true, chs "m.x"⟩, ⟨chs "y",
      2, true, chs "m.y"⟩, ⟨chs "arr", 4, false, chs "m.arr"⟩]
    tree := [.inst false (chs "m") (chs "m") [.port ⟨100, some 0, .input, [⟨0, 1, true⟩]⟩, .port ⟨101, some 1,
        .input, [⟨0, 1, true⟩]⟩, .port ⟨102, some 2, .output, [⟨0, 1, false⟩]⟩, .port ⟨103, some 3, .output, [⟨0,
        1, false⟩]⟩, blk 0, blk 1, blk 2, blk 3]
        []]
    blocks := [cont (.lsp 2 ⟨some 4, 0, 1⟩ []) (.lsp 2 ⟨some 0, 0, 1⟩ []),
      cont (.lsp 2 ⟨some 4, 2, 1⟩ []) (.lsp 2 ⟨some 1, 0, 1⟩ []),
      cont (.lsp 2 ⟨some 2, 0, 1⟩ []) (.lsp 2 ⟨some 4, 0, 1⟩ []),
      cont (.lsp 2 ⟨some 3, 0, 1⟩ []) (.lsp 2 ⟨some 4, 2, 1⟩ [])] }

theorem multiDimensionalPackedArray_ok : meets multiDimensionalPackedArray [
    .path (chs "m.a") (chs "m.x") true, .path (chs "m.b") (chs "m.y") true] = true := by
  decide +kernel

/-- Constant driver: pure-literal continuous assignment. tests/unit/ConstantDriverTests.cpp:26-40. -/
def constantDriverPureLiteralContinuousAssignment : Design' :=
  { sigs := [⟨chs "x", 4, true, chs "m.x"⟩]
    tree := [.inst false (chs "m") (chs "m") [.port ⟨100, some 0, .output, [⟨0, 3, false⟩]⟩, blk 0]
        []]
    blocks := [cont (.lsp 4 ⟨some 0, 0, 3⟩ []) (.other 4 (some [.one, .zero, .one, .zero]) [])] }

theorem constantDriverPureLiteralContinuousAssignment_ok : meets constantDriverPureLiteralContinuousAssignment [
    .consts [(4, chs "4'b101")]] = true := by
  decide +kernel

/-- Constant driver: zero-extension produces a constant-zero source. tests/unit/ConstantDriverTests.cpp:42-56. -/
def constantDriverZeroExtensionProducesA : Design' :=
  { sigs := [⟨chs "a", 4, true, chs "m.a"⟩, ⟨chs "b", 8, true, chs "m.b"⟩]
    tree := [.inst false (chs "m") (chs "m") [.port ⟨100, some 0, .input, [⟨0, 3, true⟩]⟩, .port ⟨101, some 1,
        .output, [⟨0, 7, false⟩]⟩, blk 0]
        []]
    blocks := [cont (.lsp 8 ⟨some 1, 0, 7⟩ []) (.conv 8 false none (.lsp 4 ⟨some 0, 0, 3⟩ []))] }

theorem constantDriverZeroExtensionProducesA_ok : meets constantDriverZeroExtensionProducesA [
    .consts [(4, chs "4'b0")]] = true := by
  decide +kernel

/-- Constant driver: signed widening keeps padding (no constant). tests/unit/ConstantDriverTests.cpp:58-67. -/
def constantDriverSignedWideningKeepsPadding : Design' :=
  { sigs := [⟨chs "a", 4, true, chs "m.a"⟩, ⟨chs "b", 8, true, chs "m.b"⟩]
    tree := [.inst false (chs "m") (chs "m") [.port ⟨100, some 0, .input, [⟨0, 3, true⟩]⟩, .port ⟨101, some 1,
        .output, [⟨0, 7, false⟩]⟩, blk 0]
        []]
    blocks := [cont (.lsp 8 ⟨some 1, 0, 7⟩ []) (.conv 8 true none (.lsp 4 ⟨some 0, 0, 3⟩ []))] }

theorem constantDriverSignedWideningKeepsPadding_ok : meets constantDriverSignedWideningKeepsPadding [
    .consts []] = true := by
  decide +kernel

/-- Constant driver: literal port connection. tests/unit/ConstantDriverTests.cpp:69-85. -/
def constantDriverLiteralPortConnection : Design' :=
  { sigs := [⟨chs "o", 3, true, chs "m.o"⟩, ⟨chs "in", 3, true, chs "m.u.in"⟩, ⟨chs "out", 3, true, chs "m.u.out"⟩]
    tree := [.inst false (chs "m") (chs "m") [.port ⟨100, some 0, .output, [⟨0, 2, false⟩]⟩,
        .inst false (chs "sub") (chs "m.u") [.port ⟨101, some 1, .input, [⟨0, 2, true⟩]⟩, .port ⟨102, some 2,
        .output, [⟨0, 2, false⟩]⟩, blk 0]
        [⟨.port 101 (some 1), some (.other 3 (some [.one, .zero, .one]) []), false, true⟩,
         ⟨.port 102 (some 2), some (.lsp 3 ⟨some 0, 0, 2⟩ []), true, true⟩]]
        []]
    blocks := [cont (.lsp 3 ⟨some 2, 0, 2⟩ []) (.lsp 3 ⟨some 1, 0, 2⟩ [])] }

theorem constantDriverLiteralPortConnection_ok : meets constantDriverLiteralPortConnection [
    .consts [(3, chs "3'b101")]] = true := by
  decide +kernel

/-- Constant driver: ternary arm with a constant. tests/unit/ConstantDriverTests.cpp:87-103. -/
def constantDriverTernaryArmWithA : Design' :=
  { sigs := [⟨chs "sel", 1, true, chs "m.sel"⟩, ⟨chs "a", 4, true, chs "m.a"⟩, ⟨chs "b", 4, true, chs "m.b"⟩]
    tree := [.inst false (chs "m") (chs "m") [.port ⟨100, some 0, .input, [⟨0, 0, true⟩]⟩, .port ⟨101, some 1,
        .input, [⟨0, 3, true⟩]⟩, .port ⟨102, some 2, .output, [⟨0, 3, false⟩]⟩, blk 0]
        []]
    blocks := [cont (.lsp 4 ⟨some 2, 0, 3⟩ []) (.condOp 4 1 false [] (.lsp 1 ⟨some 0, 0, 0⟩ []) (.lsp 4 ⟨some 1, 0,
        3⟩ []) (.other 4 (some [.zero, .zero, .zero, .zero]) []))] }

theorem constantDriverTernaryArmWithA_ok : meets constantDriverTernaryArmWithA [
    .consts [(4, chs "4'b0")]] = true := by
  decide +kernel

/-- Constant driver: procedural assignment of literal. tests/unit/ConstantDriverTests.cpp:105-117. -/
def constantDriverProceduralAssignmentOfLiteral : Design' :=
  { sigs := [⟨chs "clk", 1, true, chs "m.clk"⟩, ⟨chs "rst", 1, true, chs "m.rst"⟩, ⟨chs "q", 1, true, chs "m.q"⟩]
    tree := [.inst false (chs "m") (chs "m") [.port ⟨100, some 0, .input, [⟨0, 0, true⟩]⟩, .port ⟨101, some 1,
        .input, [⟨0, 0, true⟩]⟩, .port ⟨102, some 2, .output, [⟨0, 0, false⟩]⟩, blk 0]
        []]
    blocks := [.procedural .alwaysFF (.timed (.signalEvent ⟨.posEdge, some 0⟩)) (ite (.lsp 1 ⟨some 1, 0,
        0⟩ []) (nba (.lsp 1 ⟨some 2, 0, 0⟩ []) (.other 1 (some [.zero]) [])) (nba (.lsp 1 ⟨some 2, 0,
        0⟩ []) (.other 1 (some [.one]) [])))] }

theorem constantDriverProceduralAssignmentOfLiteral_ok : meets constantDriverProceduralAssignmentOfLiteral [
    .kinds .constant 2] = true := by
  decide +kernel

end Verif.Conform.Blocks

import Verif.Conform.Base

/-!
The model on designs of the project's unit tests: queries on netlists. Each design is that of a test under
`tests/unit`, written out by a script from the SystemVerilog text of the test, and the checks are those of
the test. These are tests of the model, not proofs about the code.
-/
namespace Verif.Conform.Queries
open Verif.Model

/-- Fan-out from an input through combinational logic. tests/unit/CombFanTests.cpp:23-38. -/
def fanOutFromAnInputThrough : Design' :=
  { sigs := [⟨chs "a", 1, true, chs "m.a"⟩, ⟨chs "x", 1, true, chs "m.x"⟩, ⟨chs "y", 1, true, chs "m.y"⟩]
    tree := [.inst false (chs "m") (chs "m") [.port ⟨100, some 0, .input, [⟨0, 0, true⟩]⟩, .port ⟨101, some 1,
        .output, [⟨0, 0, false⟩]⟩, .port ⟨102, some 2, .output, [⟨0, 0, false⟩]⟩, blk 0, blk 1]
        []]
    blocks := [cont (.lsp 1 ⟨some 1, 0, 0⟩ []) (.lsp 1 ⟨some 0, 0, 0⟩ []),
      cont (.lsp 1 ⟨some 2, 0, 0⟩ []) (.lsp 1 ⟨some 0, 0, 0⟩ [])] }

theorem fanOutFromAnInputThrough_ok : meets fanOutFromAnInputThrough [
    .fanOut (chs "m.a") [chs "m.a", chs "m.x", chs "m.y"] []] = true := by
  decide +kernel

/-- Fan-in to an output through combinational logic. tests/unit/CombFanTests.cpp:40-54. -/
def fanInToAnOutputThrough : Design' :=
  { sigs := [⟨chs "a", 1, true, chs "m.a"⟩, ⟨chs "b", 1, true, chs "m.b"⟩, ⟨chs "y", 1, true, chs "m.y"⟩]
    tree := [.inst false (chs "m") (chs "m") [.port ⟨100, some 0, .input, [⟨0, 0, true⟩]⟩, .port ⟨101, some 1,
        .input, [⟨0, 0, true⟩]⟩, .port ⟨102, some 2, .output, [⟨0, 0, false⟩]⟩, blk 0]
        []]
    blocks := [cont (.lsp 1 ⟨some 2, 0, 0⟩ []) (.other 1 none [⟨some 0, 0, 0⟩, ⟨some 1, 0, 0⟩])] }

theorem fanInToAnOutputThrough_ok : meets fanInToAnOutputThrough [
    .fanIn (chs "m.y") [chs "m.a", chs "m.b", chs "m.y"] []] = true := by
  decide +kernel

/-- Fan-out stops at sequential state. tests/unit/CombFanTests.cpp:56-71. -/
def fanOutStopsAtSequentialState : Design' :=
  { sigs := [⟨chs "clk", 1, true, chs "m.clk"⟩, ⟨chs "a", 1, true, chs "m.a"⟩, ⟨chs "x", 1, true, chs "m.x"⟩,
      ⟨chs "y", 1, true, chs "m.y"⟩]
    tree := [.inst false (chs "m") (chs "m") [.port ⟨100, some 0, .input, [⟨0, 0, true⟩]⟩, .port ⟨101, some 1,
        .input, [⟨0, 0, true⟩]⟩, .port ⟨102, some 2, .output, [⟨0, 0, false⟩]⟩, .port ⟨103, some 3, .output, [⟨0,
        0, false⟩]⟩, blk 0, blk 1]
        []]
    blocks := [cont (.lsp 1 ⟨some 2, 0, 0⟩ []) (.lsp 1 ⟨some 1, 0, 0⟩ []),
      .procedural .alwaysFF (.timed (.signalEvent ⟨.posEdge, some 0⟩)) (nba (.lsp 1 ⟨some 3, 0,
          0⟩ []) (.lsp 1 ⟨some 1, 0, 0⟩ []))] }

theorem fanOutStopsAtSequentialState_ok : meets fanOutStopsAtSequentialState [
    .fanOut (chs "m.a") [chs "m.x"] [chs "m.y"]] = true := by
  decide +kernel

/-- Fan-in stops at sequential state. tests/unit/CombFanTests.cpp:73-90. -/
def fanInStopsAtSequentialState : Design' :=
  { sigs := [⟨chs "clk", 1, true, chs "m.clk"⟩, ⟨chs "a", 1, true, chs "m.a"⟩, ⟨chs "b", 1, true, chs "m.b"⟩,
      ⟨chs "y", 1, true, chs "m.y"⟩, ⟨chs "q", 1, false, chs "m.q"⟩]
    tree := [.inst false (chs "m") (chs "m") [.port ⟨100, some 0, .input, [⟨0, 0, true⟩]⟩, .port ⟨101, some 1,
        .input, [⟨0, 0, true⟩]⟩, .port ⟨102, some 2, .input, [⟨0, 0, true⟩]⟩, .port ⟨103, some 3, .output, [⟨0, 0,
        false⟩]⟩, blk 0, blk 1]
        []]
    blocks := [.procedural .alwaysFF (.timed (.signalEvent ⟨.posEdge, some 0⟩)) (nba (.lsp 1 ⟨some 4, 0,
        0⟩ []) (.lsp 1 ⟨some 1, 0, 0⟩ [])),
      cont (.lsp 1 ⟨some 3, 0, 0⟩ []) (.other 1 none [⟨some 4, 0, 0⟩, ⟨some 2, 0, 0⟩])] }

theorem fanInStopsAtSequentialState_ok : meets fanInStopsAtSequentialState [
    .fanIn (chs "m.y") [chs "m.b", chs "m.y"] [chs "m.a"]] = true := by
  decide +kernel

/-- Fan-out from a single node. tests/unit/CombFanTests.cpp:92-104. -/
def fanOutFromASingleNode : Design' :=
  { sigs := [⟨chs "a", 1, true, chs "m.a"⟩, ⟨chs "b", 1, true, chs "m.b"⟩]
    tree := [.inst false (chs "m") (chs "m") [.port ⟨100, some 0, .input, [⟨0, 0, true⟩]⟩, .port ⟨101, some 1,
        .output, [⟨0, 0, false⟩]⟩, blk 0]
        []]
    blocks := [cont (.lsp 1 ⟨some 1, 0, 0⟩ []) (.lsp 1 ⟨some 0, 0, 0⟩ [])] }

theorem fanOutFromASingleNode_ok : meets fanOutFromASingleNode [
    .fanOutSelf (chs "m.b")] = true := by
  decide +kernel

/-- Fan-in from a single node. tests/unit/CombFanTests.cpp:106-118. -/
def fanInFromASingleNode : Design' :=
  { sigs := [⟨chs "a", 1, true, chs "m.a"⟩, ⟨chs "b", 1, true, chs "m.b"⟩]
    tree := [.inst false (chs "m") (chs "m") [.port ⟨100, some 0, .input, [⟨0, 0, true⟩]⟩, .port ⟨101, some 1,
        .output, [⟨0, 0, false⟩]⟩, blk 0]
        []]
    blocks := [cont (.lsp 1 ⟨some 1, 0, 0⟩ []) (.lsp 1 ⟨some 0, 0, 0⟩ [])] }

theorem fanInFromASingleNode_ok : meets fanInFromASingleNode [
    .fanInSelf (chs "m.a")] = true := by
  decide +kernel

/-- A simple combinational loop. tests/unit/CombLoopTests.cpp:4-25. -/
def aSimpleCombinationalLoop : Design' :=
  { sigs := [⟨chs "a", 1, false, chs "m.a"⟩, ⟨chs "b", 1, false, chs "m.b"⟩, ⟨chs "x", 1, true, chs "m.t.x"⟩,
      ⟨chs "y", 1, true, chs "m.t.y"⟩]
    tree := [.inst false (chs "m") (chs "m") [.inst false (chs "t") (chs "m.t") [.port ⟨102, some 2, .input, [⟨0,
        0, true⟩]⟩, .port ⟨103, some 3, .output, [⟨0, 0, false⟩]⟩, blk 0]
        [⟨.port 102 (some 2), some (.lsp 1 ⟨some 0, 0, 0⟩ []), false, true⟩,
         ⟨.port 103 (some 3), some (.lsp 1 ⟨some 1, 0, 0⟩ []), true, true⟩], blk 1]
        []]
    blocks := [cont (.lsp 1 ⟨some 3, 0, 0⟩ []) (.lsp 1 ⟨some 2, 0, 0⟩ []),
      cont (.lsp 1 ⟨some 0, 0, 0⟩ []) (.lsp 1 ⟨some 1, 0, 0⟩ [])] }

theorem aSimpleCombinationalLoop_ok : meets aSimpleCombinationalLoop [
    .loops 1, .loop 4 2] = true := by
  decide +kernel

/-- No combinational loop with a single posedge DFF path. tests/unit/CombLoopTests.cpp:27-47. -/
def noCombinationalLoopWithASingle : Design' :=
  { sigs := [⟨chs "clk", 1, true, chs "m.clk"⟩, ⟨chs "a", 1, false, chs "m.a"⟩, ⟨chs "b", 1, false, chs "m.b"⟩,
      ⟨chs "clk", 1, true, chs "m.t.clk"⟩, ⟨chs "x", 1, true, chs "m.t.x"⟩, ⟨chs "z", 1, true, chs "m.t.z"⟩]
    tree := [.inst false (chs "m") (chs "m") [.port ⟨100, some 0, .input, [⟨0, 0, true⟩]⟩,
        .inst false (chs "t") (chs "m.t") [.port ⟨103, some 3, .input, [⟨0, 0, true⟩]⟩, .port ⟨104, some 4, .input,
        [⟨0, 0, true⟩]⟩, .port ⟨105, some 5, .output, [⟨0, 0, false⟩]⟩, blk 0]
        [⟨.port 103 (some 3), some (.lsp 1 ⟨some 0, 0, 0⟩ []), false, true⟩,
         ⟨.port 104 (some 4), some (.lsp 1 ⟨some 1, 0, 0⟩ []), false, true⟩,
         ⟨.port 105 (some 5), some (.lsp 1 ⟨some 2, 0, 0⟩ []), true, true⟩], blk 1]
        []]
    blocks := [.procedural .always (.timed (.signalEvent ⟨.posEdge, some 3⟩)) (nba (.lsp 1 ⟨some 5, 0,
        0⟩ []) (.lsp 1 ⟨some 4, 0, 0⟩ [])),
      cont (.lsp 1 ⟨some 1, 0, 0⟩ []) (.lsp 1 ⟨some 2, 0, 0⟩ [])] }

theorem noCombinationalLoopWithASingle_ok : meets noCombinationalLoopWithASingle [
    .loops 0] = true := by
  decide +kernel

/-- No combinational loop with multiple edges DFF path. tests/unit/CombLoopTests.cpp:49-71. -/
def noCombinationalLoopWithMultipleEdges : Design' :=
  { sigs := [⟨chs "clk", 1, true, chs "m.clk"⟩, ⟨chs "rst", 1, true, chs "m.rst"⟩, ⟨chs "a", 1, false, chs "m.a"⟩,
      ⟨chs "b", 1, false, chs "m.b"⟩, ⟨chs "clk", 1, true, chs "m.t.clk"⟩, ⟨chs "rst", 1, true, chs "m.t.rst"⟩,
      ⟨chs "x", 1, true, chs "m.t.x"⟩, ⟨chs "z", 1, true, chs "m.t.z"⟩]
    tree := [.inst false (chs "m") (chs "m") [.port ⟨100, some 0, .input, [⟨0, 0, true⟩]⟩, .port ⟨101, some 1,
        .input, [⟨0, 0, true⟩]⟩, .inst false (chs "t") (chs "m.t") [.port ⟨104, some 4, .input, [⟨0, 0, true⟩]⟩,
        .port ⟨105, some 5, .input, [⟨0, 0, true⟩]⟩, .port ⟨106, some 6, .input, [⟨0, 0, true⟩]⟩, .port ⟨107,
        some 7, .output, [⟨0, 0, false⟩]⟩, blk 0]
        [⟨.port 104 (some 4), some (.lsp 1 ⟨some 0, 0, 0⟩ []), false, true⟩,
         ⟨.port 105 (some 5), some (.lsp 1 ⟨some 1, 0, 0⟩ []), false, true⟩,
         ⟨.port 106 (some 6), some (.lsp 1 ⟨some 2, 0, 0⟩ []), false, true⟩,
         ⟨.port 107 (some 7), some (.lsp 1 ⟨some 3, 0, 0⟩ []), true, true⟩], blk 1]
        []]
    blocks := [.procedural .always (.timed (.eventList [some ⟨.posEdge, some 4⟩, some ⟨.negEdge,
        some 5⟩])) (ite (.other 1 none [⟨some 5, 0, 0⟩]) (nba (.lsp 1 ⟨some 7, 0,
        0⟩ []) (.other 1 (some [.zero]) [])) (nba (.lsp 1 ⟨some 7, 0, 0⟩ []) (.lsp 1 ⟨some 6, 0, 0⟩ []))),
      cont (.lsp 1 ⟨some 2, 0, 0⟩ []) (.lsp 1 ⟨some 3, 0, 0⟩ [])] }

theorem noCombinationalLoopWithMultipleEdges_ok : meets noCombinationalLoopWithMultipleEdges [
    .loops 0] = true := by
  decide +kernel

/-- A combinational loop with a combinational event list. tests/unit/CombLoopTests.cpp:73-93. -/
def aCombinationalLoopWithACombinational : Design' :=
  { sigs := [⟨chs "clk", 1, true, chs "m.clk"⟩, ⟨chs "rst", 1, true, chs "m.rst"⟩, ⟨chs "a", 1, false, chs "m.a"⟩,
      ⟨chs "b", 1, false, chs "m.b"⟩, ⟨chs "clk", 1, true, chs "m.t.clk"⟩, ⟨chs "rst", 1, true, chs "m.t.rst"⟩,
      ⟨chs "x", 1, true, chs "m.t.x"⟩, ⟨chs "z", 1, true, chs "m.t.z"⟩]
    tree := [.inst false (chs "m") (chs "m") [.port ⟨100, some 0, .input, [⟨0, 0, true⟩]⟩, .port ⟨101, some 1,
        .input, [⟨0, 0, true⟩]⟩, .inst false (chs "t") (chs "m.t") [.port ⟨104, some 4, .input, [⟨0, 0, true⟩]⟩,
        .port ⟨105, some 5, .input, [⟨0, 0, true⟩]⟩, .port ⟨106, some 6, .input, [⟨0, 0, true⟩]⟩, .port ⟨107,
        some 7, .output, [⟨0, 0, false⟩]⟩, blk 0]
        [⟨.port 104 (some 4), some (.lsp 1 ⟨some 0, 0, 0⟩ []), false, true⟩,
         ⟨.port 105 (some 5), some (.lsp 1 ⟨some 1, 0, 0⟩ []), false, true⟩,
         ⟨.port 106 (some 6), some (.lsp 1 ⟨some 2, 0, 0⟩ []), false, true⟩,
         ⟨.port 107 (some 7), some (.lsp 1 ⟨some 3, 0, 0⟩ []), true, true⟩], blk 1]
        []]
    blocks := [.procedural .always (.timed (.eventList [some ⟨.posEdge, some 4⟩, some ⟨.none,
        some 6⟩])) (nba (.lsp 1 ⟨some 7, 0, 0⟩ []) (.lsp 1 ⟨some 6, 0, 0⟩ [])),
      cont (.lsp 1 ⟨some 2, 0, 0⟩ []) (.lsp 1 ⟨some 3, 0, 0⟩ [])] }

theorem aCombinationalLoopWithACombinational_ok : meets aCombinationalLoopWithACombinational [
    .loops 1] = true := by
  decide +kernel

/-- No combinational loop with self assignment. tests/unit/CombLoopTests.cpp:95-107. -/
def noCombinationalLoopWithSelfAssignment : Design' :=
  { sigs := [⟨chs "w", 11, false, chs "m.w"⟩]
    tree := [.inst false (chs "m") (chs "m") [blk 0]
        []]
    blocks := [cont (.lsp 1 ⟨some 0, 0, 0⟩ []) (.lsp 1 ⟨some 0, 3, 0⟩ [])] }

theorem noCombinationalLoopWithSelfAssignment_ok : meets noCombinationalLoopWithSelfAssignment [
    .loops 0] = true := by
  decide +kernel

/-- No combinational loop with inout port. tests/unit/CombLoopTests.cpp:109-122. -/
def noCombinationalLoopWithInoutPort : Design' :=
  { sigs := [⟨chs "w", 1, true, chs "m.w"⟩, ⟨chs "w", 1, true, chs "m.tt.w"⟩]
    tree := [.inst false (chs "m") (chs "m") [.port ⟨100, some 0, .input, [⟨0, 0, true⟩]⟩,
        .inst false (chs "t") (chs "m.tt") [.port ⟨101, some 1, .inout, [⟨0, 0, true⟩]⟩]
        [⟨.port 101 (some 1), some (.lsp 1 ⟨some 0, 0, 0⟩ []), false, true⟩]]
        []]
    blocks := [] }

theorem noCombinationalLoopWithInoutPort_ok : meets noCombinationalLoopWithInoutPort [
    .loops 0] = true := by
  decide +kernel

/-- No combinational loop with sequential assignments. tests/unit/CombLoopTests.cpp:124-140. -/
def noCombinationalLoopWithSequentialAssignments : Design' :=
  { sigs := [⟨chs "key", 1, true, chs "aes_key_mem1.key"⟩, ⟨chs "key_mem_new", 1, false,
      chs "aes_key_mem1.key_mem_new"⟩]
    tree := [.inst false (chs "aes_key_mem1") (chs "aes_key_mem1") [.port ⟨100, some 0, .input, [⟨0, 0, true⟩]⟩,
        blk 0]
        []]
    blocks := [.procedural .alwaysComb .other (sq [ba (.lsp 1 ⟨some 1, 0, 0⟩ []) (.lsp 1 ⟨some 0, 0, 0⟩ []),
        ba (.lsp 1 ⟨some 1, 0, 0⟩ []) (.lsp 1 ⟨some 0, 0, 0⟩ [])])] }

theorem noCombinationalLoopWithSequentialAssignments_ok : meets noCombinationalLoopWithSequentialAssignments [
    .loops 0] = true := by
  decide +kernel

/-- Driver range that contains an existing one. tests/unit/DriverTests.cpp:3-17. -/
def driverRangeThatContainsAnExisting : Design' :=
  { sigs := [⟨chs "a", 4, true, chs "m.a"⟩, ⟨chs "b", 4, true, chs "m.b"⟩, ⟨chs "t", 4, false, chs "m.t"⟩]
    tree := [.inst false (chs "m") (chs "m") [.port ⟨100, some 0, .input, [⟨0, 3, true⟩]⟩, .port ⟨101, some 1,
        .output, [⟨0, 3, false⟩]⟩, blk 0, blk 1]
        []]
    blocks := [.procedural .alwaysComb .other (sq [ba (.lsp 2 ⟨some 2, 0, 1⟩ []) (.lsp 2 ⟨some 0, 0, 1⟩ []),
        ba (.lsp 4 ⟨some 2, 0, 3⟩ []) (.lsp 4 ⟨some 0, 0, 3⟩ [])]),
      cont (.lsp 4 ⟨some 1, 0, 3⟩ []) (.lsp 4 ⟨some 2, 0, 3⟩ [])] }

theorem driverRangeThatContainsAnExisting_ok : meets driverRangeThatContainsAnExisting [
    .exactly (chs "m.t") 3 3 1, .exactly (chs "m.t") 1 0 1] = true := by
  decide +kernel

/-- Driver range that left-overlaps an existing one (replace). tests/unit/DriverTests.cpp:19-35. -/
def driverRangeThatLeftOverlapsAn : Design' :=
  { sigs := [⟨chs "a", 4, true, chs "m.a"⟩, ⟨chs "b", 4, true, chs "m.b"⟩, ⟨chs "t", 4, false, chs "m.t"⟩]
    tree := [.inst false (chs "m") (chs "m") [.port ⟨100, some 0, .input, [⟨0, 3, true⟩]⟩, .port ⟨101, some 1,
        .output, [⟨0, 3, false⟩]⟩, blk 0, blk 1]
        []]
    blocks := [.procedural .alwaysComb .other (sq [ba (.lsp 2 ⟨some 2, 2, 1⟩ []) (.lsp 2 ⟨some 0, 0, 1⟩ []),
        ba (.lsp 3 ⟨some 2, 0, 2⟩ []) (.lsp 3 ⟨some 0, 0, 2⟩ [])]),
      cont (.lsp 4 ⟨some 1, 0, 3⟩ []) (.lsp 4 ⟨some 2, 0, 3⟩ [])] }

theorem driverRangeThatLeftOverlapsAn_ok : meets driverRangeThatLeftOverlapsAn [
    .exactly (chs "m.t") 3 3 1, .exactly (chs "m.t") 2 2 1, .exactly (chs "m.t") 1 0 1] = true := by
  decide +kernel

/-- Driver range that right-overlaps an existing one (replace). tests/unit/DriverTests.cpp:37-53. -/
def driverRangeThatRightOverlapsAn : Design' :=
  { sigs := [⟨chs "a", 4, true, chs "m.a"⟩, ⟨chs "b", 4, true, chs "m.b"⟩, ⟨chs "t", 4, false, chs "m.t"⟩]
    tree := [.inst false (chs "m") (chs "m") [.port ⟨100, some 0, .input, [⟨0, 3, true⟩]⟩, .port ⟨101, some 1,
        .output, [⟨0, 3, false⟩]⟩, blk 0, blk 1]
        []]
    blocks := [.procedural .alwaysComb .other (sq [ba (.lsp 3 ⟨some 2, 0, 2⟩ []) (.lsp 3 ⟨some 0, 0, 2⟩ []),
        ba (.lsp 2 ⟨some 2, 2, 1⟩ []) (.lsp 2 ⟨some 0, 0, 1⟩ [])]),
      cont (.lsp 4 ⟨some 1, 0, 3⟩ []) (.lsp 4 ⟨some 2, 0, 3⟩ [])] }

theorem driverRangeThatRightOverlapsAn_ok : meets driverRangeThatRightOverlapsAn [
    .exactly (chs "m.t") 3 3 1, .exactly (chs "m.t") 2 2 1, .exactly (chs "m.t") 1 0 1] = true := by
  decide +kernel

/-- Driver range that left-overlaps an existing one (merge). tests/unit/DriverTests.cpp:55-73. -/
def driverRangeThatLeftOverlapsAn2 : Design' :=
  { sigs := [⟨chs "a", 4, true, chs "m.a"⟩, ⟨chs "c", 1, true, chs "m.c"⟩, ⟨chs "b", 4, true, chs "m.b"⟩, ⟨chs "t",
      4, false, chs "m.t"⟩]
    tree := [.inst false (chs "m") (chs "m") [.port ⟨100, some 0, .input, [⟨0, 3, true⟩]⟩, .port ⟨101, some 1,
        .input, [⟨0, 0, true⟩]⟩, .port ⟨102, some 2, .output, [⟨0, 3, false⟩]⟩, blk 0, blk 1]
        []]
    blocks := [.procedural .alwaysComb .other (ite (.lsp 1 ⟨some 1, 0, 0⟩ []) (ba (.lsp 2 ⟨some 3, 2,
        1⟩ []) (.lsp 2 ⟨some 0, 0, 1⟩ [])) (ba (.lsp 3 ⟨some 3, 0, 2⟩ []) (.lsp 3 ⟨some 0, 0, 2⟩ []))),
      cont (.lsp 4 ⟨some 2, 0, 3⟩ []) (.lsp 4 ⟨some 3, 0, 3⟩ [])] }

theorem driverRangeThatLeftOverlapsAn2_ok : meets driverRangeThatLeftOverlapsAn2 [
    .exactly (chs "m.t") 3 3 1, .exactly (chs "m.t") 2 2 2, .exactly (chs "m.t") 1 0 1] = true := by
  decide +kernel

/-- Driver range that right-overlaps an existing one (merge). tests/unit/DriverTests.cpp:75-93. -/
def driverRangeThatRightOverlapsAn2 : Design' :=
  { sigs := [⟨chs "a", 4, true, chs "m.a"⟩, ⟨chs "c", 1, true, chs "m.c"⟩, ⟨chs "b", 4, true, chs "m.b"⟩, ⟨chs "t",
      4, false, chs "m.t"⟩]
    tree := [.inst false (chs "m") (chs "m") [.port ⟨100, some 0, .input, [⟨0, 3, true⟩]⟩, .port ⟨101, some 1,
        .input, [⟨0, 0, true⟩]⟩, .port ⟨102, some 2, .output, [⟨0, 3, false⟩]⟩, blk 0, blk 1]
        []]
    blocks := [.procedural .alwaysComb .other (ite (.lsp 1 ⟨some 1, 0, 0⟩ []) (ba (.lsp 3 ⟨some 3, 0,
        2⟩ []) (.lsp 3 ⟨some 0, 0, 2⟩ [])) (ba (.lsp 2 ⟨some 3, 2, 1⟩ []) (.lsp 2 ⟨some 0, 0, 1⟩ []))),
      cont (.lsp 4 ⟨some 2, 0, 3⟩ []) (.lsp 4 ⟨some 3, 0, 3⟩ [])] }

theorem driverRangeThatRightOverlapsAn2_ok : meets driverRangeThatRightOverlapsAn2 [
    .exactly (chs "m.t") 3 3 1, .exactly (chs "m.t") 2 2 2, .exactly (chs "m.t") 1 0 1] = true := by
  decide +kernel

/-- Driver query on directly-written output port. tests/unit/DriverTests.cpp:95-116. -/
def driverQueryOnDirectlyWrittenOutput : Design' :=
  { sigs := [⟨chs "cond", 1, true, chs "m.cond"⟩, ⟨chs "a", 8, true, chs "m.a"⟩, ⟨chs "b", 8, true, chs "m.b"⟩,
      ⟨chs "x", 8, true, chs "m.x"⟩]
    tree := [.inst false (chs "m") (chs "m") [.port ⟨100, some 0, .input, [⟨0, 0, true⟩]⟩, .port ⟨101, some 1,
        .input, [⟨0, 7, true⟩]⟩, .port ⟨102, some 2, .input, [⟨0, 7, true⟩]⟩, .port ⟨103, some 3, .output, [⟨0, 7,
        false⟩, ⟨4, 3, false⟩]⟩, blk 0]
        []]
    blocks := [.procedural .alwaysComb .other (ite (.lsp 1 ⟨some 0, 0, 0⟩ []) (ba (.lsp 4 ⟨some 3, 4,
        3⟩ []) (.lsp 4 ⟨some 1, 0, 3⟩ [])) (ba (.lsp 8 ⟨some 3, 0, 7⟩ []) (.lsp 8 ⟨some 2, 0, 7⟩ [])))] }

theorem driverQueryOnDirectlyWrittenOutput_ok : meets driverQueryOnDirectlyWrittenOutput [
    .exactly (chs "m.x") 7 4 2, .exactly (chs "m.x") 3 0 1] = true := by
  decide +kernel

/-- Four-way driver overlap (merge). tests/unit/DriverTests.cpp:118-138. -/
def fourWayDriverOverlapMerge : Design' :=
  { sigs := [⟨chs "a", 4, true, chs "m.a"⟩, ⟨chs "c", 2, true, chs "m.c"⟩, ⟨chs "b", 4, true, chs "m.b"⟩, ⟨chs "t",
      4, false, chs "m.t"⟩]
    tree := [.inst false (chs "m") (chs "m") [.port ⟨100, some 0, .input, [⟨0, 3, true⟩]⟩, .port ⟨101, some 1,
        .input, [⟨0, 1, true⟩]⟩, .port ⟨102, some 2, .output, [⟨0, 3, false⟩]⟩, blk 0, blk 1]
        []]
    blocks := [.procedural .alwaysComb .other (.cond true {} [.lsp 2 ⟨some 1, 0, 1⟩ [], .other 32 (some [.zero,
        .zero, .zero, .zero, .zero, .zero, .zero, .zero, .zero, .zero, .zero, .zero, .zero, .zero, .zero, .zero,
        .zero, .zero, .zero, .zero, .zero, .zero, .zero, .zero, .zero, .zero, .zero, .zero, .zero, .zero, .zero,
        .zero]) [], .other 32 (some [.one, .zero, .zero, .zero, .zero, .zero, .zero, .zero, .zero, .zero, .zero,
        .zero, .zero, .zero, .zero, .zero, .zero, .zero, .zero, .zero, .zero, .zero, .zero, .zero, .zero, .zero,
        .zero, .zero, .zero, .zero, .zero, .zero]) [], .other 32 (some [.zero, .one, .zero, .zero, .zero, .zero,
        .zero, .zero, .zero, .zero, .zero, .zero, .zero, .zero, .zero, .zero, .zero, .zero, .zero, .zero, .zero,
        .zero, .zero, .zero, .zero, .zero, .zero, .zero, .zero, .zero, .zero, .zero]) [], .other 32 (some [.one,
        .one, .zero, .zero, .zero, .zero, .zero, .zero, .zero, .zero, .zero, .zero, .zero, .zero, .zero, .zero,
        .zero, .zero, .zero, .zero, .zero, .zero, .zero, .zero, .zero, .zero, .zero, .zero, .zero, .zero, .zero,
        .zero]) []] (.choose true (.choose true (.choose true (ba (.lsp 2 ⟨some 3, 0, 1⟩ []) (.lsp 2 ⟨some 0, 0,
        1⟩ [])) (ba (.lsp 2 ⟨some 3, 2, 1⟩ []) (.lsp 2 ⟨some 0, 0, 1⟩ []))) (ba (.lsp 2 ⟨some 3, 1,
        1⟩ []) (.lsp 2 ⟨some 0, 0, 1⟩ []))) (ba (.lsp 1 ⟨some 3, 1, 0⟩ []) (.lsp 1 ⟨some 0, 0, 0⟩ [])))),
      cont (.lsp 4 ⟨some 2, 0, 3⟩ []) (.lsp 4 ⟨some 3, 0, 3⟩ [])] }

theorem fourWayDriverOverlapMerge_ok : meets fourWayDriverOverlapMerge [
    .exactly (chs "m.t") 3 3 1, .exactly (chs "m.t") 2 2 2, .exactly (chs "m.t") 1 1 3,
        .exactly (chs "m.t") 0 0 1] = true := by
  decide +kernel

/-- Bit-drivers report distinct sources per bit range. tests/unit/DriverTests.cpp:148-159. -/
def bitDriversReportDistinctSourcesPer : Design' :=
  { sigs := [⟨chs "a", 4, true, chs "m.a"⟩, ⟨chs "b", 4, true, chs "m.b"⟩, ⟨chs "y", 4, true, chs "m.y"⟩]
    tree := [.inst false (chs "m") (chs "m") [.port ⟨100, some 0, .input, [⟨0, 3, true⟩]⟩, .port ⟨101, some 1,
        .input, [⟨0, 3, true⟩]⟩, .port ⟨102, some 2, .output, [⟨0, 1, false⟩, ⟨2, 1, false⟩]⟩, blk 0, blk 1]
        []]
    blocks := [cont (.lsp 2 ⟨some 2, 0, 1⟩ []) (.lsp 2 ⟨some 0, 0, 1⟩ []),
      cont (.lsp 2 ⟨some 2, 2, 1⟩ []) (.lsp 2 ⟨some 1, 0, 1⟩ [])] }

theorem bitDriversReportDistinctSourcesPer_ok : meets bitDriversReportDistinctSourcesPer [
    .bits (chs "m.y") 3 0 [(0, 1), (2, 3)]] = true := by
  decide +kernel

/-- Bit-drivers clip to the queried range. tests/unit/DriverTests.cpp:161-168. -/
def bitDriversClipToTheQueried : Design' :=
  { sigs := [⟨chs "a", 4, true, chs "m.a"⟩, ⟨chs "b", 4, true, chs "m.b"⟩, ⟨chs "y", 4, true, chs "m.y"⟩]
    tree := [.inst false (chs "m") (chs "m") [.port ⟨100, some 0, .input, [⟨0, 3, true⟩]⟩, .port ⟨101, some 1,
        .input, [⟨0, 3, true⟩]⟩, .port ⟨102, some 2, .output, [⟨0, 1, false⟩, ⟨2, 1, false⟩]⟩, blk 0, blk 1]
        []]
    blocks := [cont (.lsp 2 ⟨some 2, 0, 1⟩ []) (.lsp 2 ⟨some 0, 0, 1⟩ []),
      cont (.lsp 2 ⟨some 2, 2, 1⟩ []) (.lsp 2 ⟨some 1, 0, 1⟩ [])] }

theorem bitDriversClipToTheQueried_ok : meets bitDriversClipToTheQueried [
    .bits (chs "m.y") 2 2 [(2, 2)]] = true := by
  decide +kernel

/-- Bit-drivers of an undriven signal are empty. tests/unit/DriverTests.cpp:170-179. -/
def bitDriversOfAnUndrivenSignal : Design' :=
  { sigs := [⟨chs "a", 4, true, chs "m.a"⟩, ⟨chs "y", 4, true, chs "m.y"⟩, ⟨chs "u", 4, false, chs "m.u"⟩]
    tree := [.inst false (chs "m") (chs "m") [.port ⟨100, some 0, .input, [⟨0, 3, true⟩]⟩, .port ⟨101, some 1,
        .output, [⟨0, 3, false⟩]⟩, blk 0]
        []]
    blocks := [cont (.lsp 4 ⟨some 1, 0, 3⟩ []) (.lsp 4 ⟨some 0, 0, 3⟩ [])] }

theorem bitDriversOfAnUndrivenSignal_ok : meets bitDriversOfAnUndrivenSignal [
    .bits (chs "m.u") 3 0 []] = true := by
  decide +kernel

/-- NetlistGraph::filterNodes. tests/unit/NetlistTests.cpp:3-25. -/
def netlistgraphFilternodes : Design' :=
  { sigs := [⟨chs "a", 1, true, chs "m.a"⟩, ⟨chs "b", 1, true, chs "m.b"⟩]
    tree := [.inst false (chs "m") (chs "m") [.port ⟨100, some 0, .input, [⟨0, 0, true⟩]⟩, .port ⟨101, some 1,
        .output, [⟨0, 0, false⟩]⟩, blk 0]
        []]
    blocks := [cont (.lsp 1 ⟨some 1, 0, 0⟩ []) (.lsp 1 ⟨some 0, 0, 0⟩ [])] }

theorem netlistgraphFilternodes_ok : meets netlistgraphFilternodes [
    .kinds .port 2, .kinds .assignment 1] = true := by
  decide +kernel

/-- NetlistGraph::lookup returns nullptr for non-existent name. tests/unit/NetlistTests.cpp:123-134. -/
def netlistgraphLookupReturnsNullptrForNon : Design' :=
  { sigs := [⟨chs "a", 1, true, chs "m.a"⟩, ⟨chs "b", 1, true, chs "m.b"⟩]
    tree := [.inst false (chs "m") (chs "m") [.port ⟨100, some 0, .input, [⟨0, 0, true⟩]⟩, .port ⟨101, some 1,
        .output, [⟨0, 0, false⟩]⟩, blk 0]
        []]
    blocks := [cont (.lsp 1 ⟨some 1, 0, 0⟩ []) (.lsp 1 ⟨some 0, 0, 0⟩ [])] }

theorem netlistgraphLookupReturnsNullptrForNon_ok : meets netlistgraphLookupReturnsNullptrForNon [
    .absent (chs "nonexistent.path"), .absent (chs "m.nonexistent"), .absent []] = true := by
  decide +kernel

/-- NetlistGraph::lookup by name and range, exact match. tests/unit/NetlistTests.cpp:136-147. -/
def netlistgraphLookupByNameAndRange : Design' :=
  { sigs := [⟨chs "a", 1, true, chs "m.a"⟩, ⟨chs "b", 1, true, chs "m.b"⟩]
    tree := [.inst false (chs "m") (chs "m") [.port ⟨100, some 0, .input, [⟨0, 0, true⟩]⟩, .port ⟨101, some 1,
        .output, [⟨0, 0, false⟩]⟩, blk 0]
        []]
    blocks := [cont (.lsp 1 ⟨some 1, 0, 0⟩ []) (.lsp 1 ⟨some 0, 0, 0⟩ [])] }

theorem netlistgraphLookupByNameAndRange_ok : meets netlistgraphLookupByNameAndRange [
    .range (chs "m.a") 0 0 [.port]] = true := by
  decide +kernel

/-- NetlistGraph::lookup by name and range, overlapping. tests/unit/NetlistTests.cpp:149-160. -/
def netlistgraphLookupByNameAndRange2 : Design' :=
  { sigs := [⟨chs "a", 8, true, chs "m.a"⟩, ⟨chs "b", 8, true, chs "m.b"⟩]
    tree := [.inst false (chs "m") (chs "m") [.port ⟨100, some 0, .input, [⟨0, 7, true⟩]⟩, .port ⟨101, some 1,
        .output, [⟨0, 7, false⟩]⟩, blk 0]
        []]
    blocks := [cont (.lsp 8 ⟨some 1, 0, 7⟩ []) (.lsp 8 ⟨some 0, 0, 7⟩ [])] }

theorem netlistgraphLookupByNameAndRange2_ok : meets netlistgraphLookupByNameAndRange2 [
    .range (chs "m.a") 5 3 [.port]] = true := by
  decide +kernel

/-- NetlistGraph::lookup by name and range, non-overlapping. tests/unit/NetlistTests.cpp:162-173. -/
def netlistgraphLookupByNameAndRange3 : Design' :=
  { sigs := [⟨chs "a", 4, true, chs "m.a"⟩, ⟨chs "b", 4, true, chs "m.b"⟩]
    tree := [.inst false (chs "m") (chs "m") [.port ⟨100, some 0, .input, [⟨0, 3, true⟩]⟩, .port ⟨101, some 1,
        .output, [⟨0, 3, false⟩]⟩, blk 0]
        []]
    blocks := [cont (.lsp 4 ⟨some 1, 0, 3⟩ []) (.lsp 4 ⟨some 0, 0, 3⟩ [])] }

theorem netlistgraphLookupByNameAndRange3_ok : meets netlistgraphLookupByNameAndRange3 [
    .range (chs "m.a") 7 4 []] = true := by
  decide +kernel

/-- NetlistGraph::lookup by name and range, non-existent name. tests/unit/NetlistTests.cpp:175-186. -/
def netlistgraphLookupByNameAndRange4 : Design' :=
  { sigs := [⟨chs "a", 1, true, chs "m.a"⟩, ⟨chs "b", 1, true, chs "m.b"⟩]
    tree := [.inst false (chs "m") (chs "m") [.port ⟨100, some 0, .input, [⟨0, 0, true⟩]⟩, .port ⟨101, some 1,
        .output, [⟨0, 0, false⟩]⟩, blk 0]
        []]
    blocks := [cont (.lsp 1 ⟨some 1, 0, 0⟩ []) (.lsp 1 ⟨some 0, 0, 0⟩ [])] }

theorem netlistgraphLookupByNameAndRange4_ok : meets netlistgraphLookupByNameAndRange4 [
    .range (chs "m.nonexistent") 0 0 []] = true := by
  decide +kernel

/-- NetlistGraph::lookup by name and range returns multiple nodes. tests/unit/NetlistTests.cpp:188-211. -/
def netlistgraphLookupByNameAndRange5 : Design' :=
  { sigs := [⟨chs "clk", 1, true, chs "m.clk"⟩, ⟨chs "a", 1, true, chs "m.a"⟩, ⟨chs "b", 1, true, chs "m.b"⟩]
    tree := [.inst false (chs "m") (chs "m") [.port ⟨100, some 0, .input, [⟨0, 0, true⟩]⟩, .port ⟨101, some 1,
        .input, [⟨0, 0, true⟩]⟩, .port ⟨102, some 2, .output, [⟨0, 0, false⟩]⟩, blk 0]
        []]
    blocks := [.procedural .alwaysFF (.timed (.signalEvent ⟨.posEdge, some 0⟩)) (nba (.lsp 1 ⟨some 2, 0,
        0⟩ []) (.lsp 1 ⟨some 1, 0, 0⟩ []))] }

theorem netlistgraphLookupByNameAndRange5_ok : meets netlistgraphLookupByNameAndRange5 [
    .range (chs "m.b") 0 0 [.port, .state]] = true := by
  decide +kernel

/-- NetlistGraph::findNodes with wildcard. tests/unit/NetlistTests.cpp:213-236. -/
def netlistgraphFindnodesWithWildcard : Design' :=
  { sigs := [⟨chs "a", 1, true, chs "m.a"⟩, ⟨chs "b", 1, true, chs "m.b"⟩, ⟨chs "x", 1, true, chs "m.x"⟩, ⟨chs "y",
      1, true, chs "m.y"⟩]
    tree := [.inst false (chs "m") (chs "m") [.port ⟨100, some 0, .input, [⟨0, 0, true⟩]⟩, .port ⟨101, some 1,
        .input, [⟨0, 0, true⟩]⟩, .port ⟨102, some 2, .output, [⟨0, 0, false⟩]⟩, .port ⟨103, some 3, .output, [⟨0,
        0, false⟩]⟩, blk 0, blk 1]
        []]
    blocks := [cont (.lsp 1 ⟨some 2, 0, 0⟩ []) (.lsp 1 ⟨some 0, 0, 0⟩ []),
      cont (.lsp 1 ⟨some 3, 0, 0⟩ []) (.lsp 1 ⟨some 1, 0, 0⟩ [])] }

theorem netlistgraphFindnodesWithWildcard_ok : meets netlistgraphFindnodesWithWildcard [
    .found (chs "m.*") 4, .found (chs "m.a") 1, .found (chs "m.?") 4, .found (chs "z.*") 0] = true := by
  decide +kernel

/-- NetlistGraph::findNodes wildcard with hierarchy. tests/unit/NetlistTests.cpp:238-290. -/
def netlistgraphFindnodesWildcardWithHierarchy : Design' :=
  { sigs := [⟨chs "a", 1, true, chs "top.a"⟩, ⟨chs "b", 1, true, chs "top.b"⟩, ⟨chs "d", 1, true, chs "top.u0.d"⟩,
      ⟨chs "q", 1, true, chs "top.u0.q"⟩]
    tree := [.inst false (chs "top") (chs "top") [.port ⟨100, some 0, .input, [⟨0, 0, true⟩]⟩, .port ⟨101, some 1,
        .output, [⟨0, 0, false⟩]⟩, .inst false (chs "sub") (chs "top.u0") [.port ⟨102, some 2, .input, [⟨0, 0,
        true⟩]⟩, .port ⟨103, some 3, .output, [⟨0, 0, false⟩]⟩, blk 0]
        [⟨.port 102 (some 2), some (.lsp 1 ⟨some 0, 0, 0⟩ []), false, true⟩,
         ⟨.port 103 (some 3), some (.lsp 1 ⟨some 1, 0, 0⟩ []), true, true⟩]]
        []]
    blocks := [cont (.lsp 1 ⟨some 3, 0, 0⟩ []) (.lsp 1 ⟨some 2, 0, 0⟩ [])] }

theorem netlistgraphFindnodesWildcardWithHierarchy_ok : meets netlistgraphFindnodesWildcardWithHierarchy [
    .foundAtLeast (chs "top.u0.*") 2, .found (chs "top.*") 2, .found (chs "top.**") 4, .found (chs "top...") 4,
    .found (chs "**") 4, .found (chs "...") 4, .found (chs "*") 0] = true := by
  decide +kernel

/-- Comb loop detection works on deserialised graph. tests/unit/SerializerTests.cpp:132-150. -/
def combLoopDetectionWorksOnDeserialised : Design' :=
  { sigs := [⟨chs "a", 1, false, chs "m.a"⟩, ⟨chs "b", 1, false, chs "m.b"⟩, ⟨chs "x", 1, true, chs "m.t.x"⟩,
      ⟨chs "y", 1, true, chs "m.t.y"⟩]
    tree := [.inst false (chs "m") (chs "m") [.inst false (chs "t") (chs "m.t") [.port ⟨102, some 2, .input, [⟨0,
        0, true⟩]⟩, .port ⟨103, some 3, .output, [⟨0, 0, false⟩]⟩, blk 0]
        [⟨.port 102 (some 2), some (.lsp 1 ⟨some 0, 0, 0⟩ []), false, true⟩,
         ⟨.port 103 (some 3), some (.lsp 1 ⟨some 1, 0, 0⟩ []), true, true⟩], blk 1]
        []]
    blocks := [cont (.lsp 1 ⟨some 3, 0, 0⟩ []) (.lsp 1 ⟨some 2, 0, 0⟩ []),
      cont (.lsp 1 ⟨some 0, 0, 0⟩ []) (.lsp 1 ⟨some 1, 0, 0⟩ [])] }

theorem combLoopDetectionWorksOnDeserialised_ok : meets combLoopDetectionWorksOnDeserialised [
    .loops 1] = true := by
  decide +kernel

end Verif.Conform.Queries

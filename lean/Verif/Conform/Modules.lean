import Verif.Conform.Base

/-!
The model on designs of the project's unit tests: ports, instances and black boxes. Each design is that of a test under
`tests/unit`, written out by a script from the SystemVerilog text of the test, and the checks are those of
the test. These are tests of the model, not proofs about the code.
-/
namespace Verif.Conform.Modules
open Verif.Model

/-- Module instance with connections to the top ports. tests/unit/InstanceTests.cpp:3-37. -/
def moduleInstanceWithConnectionsToThe : Design' :=
  { sigs := [⟨chs "a", 1, true, chs "top.a"⟩, ⟨chs "b", 1, true, chs "top.b"⟩, ⟨chs "c", 1, true, chs "top.c"⟩,
      ⟨chs "x", 1, true, chs "top.u_mux.x"⟩, ⟨chs "y", 1, true, chs "top.u_mux.y"⟩, ⟨chs "z", 1, true,
      chs "top.u_mux.z"⟩]
    tree := [.inst false (chs "top") (chs "top") [.port ⟨100, some 0, .input, [⟨0, 0, true⟩]⟩, .port ⟨101, some 1,
        .input, [⟨0, 0, true⟩]⟩, .port ⟨102, some 2, .output, [⟨0, 0, false⟩]⟩,
        .inst false (chs "foo") (chs "top.u_mux") [.port ⟨103, some 3, .input, [⟨0, 0, true⟩]⟩, .port ⟨104, some 4,
        .input, [⟨0, 0, true⟩]⟩, .port ⟨105, some 5, .output, [⟨0, 0, false⟩]⟩, blk 0]
        [⟨.port 103 (some 3), some (.lsp 1 ⟨some 0, 0, 0⟩ []), false, true⟩,
         ⟨.port 104 (some 4), some (.lsp 1 ⟨some 1, 0, 0⟩ []), false, true⟩,
         ⟨.port 105 (some 5), some (.lsp 1 ⟨some 2, 0, 0⟩ []), true, true⟩]]
        []]
    blocks := [cont (.lsp 1 ⟨some 5, 0, 0⟩ []) (.other 1 none [⟨some 3, 0, 0⟩, ⟨some 4, 0, 0⟩])] }

theorem moduleInstanceWithConnectionsToThe_ok : meets moduleInstanceWithConnectionsToThe [
    .path (chs "top.a") (chs "top.c") true, .path (chs "top.b") (chs "top.c") true] = true := by
  decide +kernel

/-- Signal passthrough with a nested module. tests/unit/InstanceTests.cpp:39-66. -/
def signalPassthroughWithANestedModule : Design' :=
  { sigs := [⟨chs "i_value", 1, true, chs "m.i_value"⟩, ⟨chs "o_value", 1, true, chs "m.o_value"⟩, ⟨chs "i_value",
      1, true, chs "m.foo.i_value"⟩, ⟨chs "o_value", 1, true, chs "m.foo.o_value"⟩]
    tree := [.inst false (chs "m") (chs "m") [.port ⟨100, some 0, .input, [⟨0, 0, true⟩]⟩, .port ⟨101, some 1,
        .output, [⟨0, 0, false⟩]⟩, .inst false (chs "p") (chs "m.foo") [.port ⟨102, some 2, .input, [⟨0, 0,
        true⟩]⟩, .port ⟨103, some 3, .output, [⟨0, 0, false⟩]⟩, blk 0]
        [⟨.port 102 (some 2), some (.lsp 1 ⟨some 0, 0, 0⟩ []), false, true⟩,
         ⟨.port 103 (some 3), some (.lsp 1 ⟨some 1, 0, 0⟩ []), true, true⟩]]
        []]
    blocks := [cont (.lsp 1 ⟨some 3, 0, 0⟩ []) (.lsp 1 ⟨some 2, 0, 0⟩ [])] }

theorem signalPassthroughWithANestedModule_ok : meets signalPassthroughWithANestedModule [
    .path (chs "m.i_value") (chs "m.o_value") true] = true := by
  decide +kernel

/-- Two instances of the same module produce independent subgraphs. tests/unit/InstanceTests.cpp:110-135. -/
def twoInstancesOfTheSameModule : Design' :=
  { sigs := [⟨chs "a", 1, true, chs "m.a"⟩, ⟨chs "b", 1, true, chs "m.b"⟩, ⟨chs "e", 1, true, chs "m.e"⟩, ⟨chs "f",
      1, true, chs "m.f"⟩, ⟨chs "c", 1, true, chs "m.c"⟩, ⟨chs "d", 1, true, chs "m.d"⟩, ⟨chs "g", 1, true,
      chs "m.g"⟩, ⟨chs "h", 1, true, chs "m.h"⟩, ⟨chs "i", 2, true, chs "m.u1.i"⟩, ⟨chs "o", 2, true,
      chs "m.u1.o"⟩, ⟨chs "i", 2, true, chs "m.u2.i"⟩, ⟨chs "o", 2, true, chs "m.u2.o"⟩]
    tree := [.inst false (chs "m") (chs "m") [.port ⟨100, some 0, .input, [⟨0, 0, true⟩]⟩, .port ⟨101, some 1,
        .input, [⟨0, 0, true⟩]⟩, .port ⟨102, some 2, .input, [⟨0, 0, true⟩]⟩, .port ⟨103, some 3, .input, [⟨0, 0,
        true⟩]⟩, .port ⟨104, some 4, .output, [⟨0, 0, false⟩]⟩, .port ⟨105, some 5, .output, [⟨0, 0, false⟩]⟩,
        .port ⟨106, some 6, .output, [⟨0, 0, false⟩]⟩, .port ⟨107, some 7, .output, [⟨0, 0, false⟩]⟩,
        .inst false (chs "sub") (chs "m.u1") [.port ⟨108, some 8, .input, [⟨0, 1, true⟩]⟩, .port ⟨109, some 9,
        .output, [⟨0, 1, false⟩]⟩, blk 0]
        [⟨.port 108 (some 8), some (.concat 2 [.lsp 1 ⟨some 1, 0, 0⟩ [], .lsp 1 ⟨some 0, 0, 0⟩ []]), false, true⟩,
         ⟨.port 109 (some 9), some (.concat 2 [.lsp 1 ⟨some 5, 0, 0⟩ [], .lsp 1 ⟨some 4, 0, 0⟩ []]), true, true⟩],
             .inst false (chs "sub") (chs "m.u2") [.port ⟨110, some 10, .input, [⟨0, 1, true⟩]⟩, .port ⟨111,
             some 11, .output, [⟨0, 1, false⟩]⟩, blk 1]
        [⟨.port 110 (some 10), some (.concat 2 [.lsp 1 ⟨some 3, 0, 0⟩ [], .lsp 1 ⟨some 2, 0, 0⟩ []]), false, true⟩,
         ⟨.port 111 (some 11), some (.concat 2 [.lsp 1 ⟨some 7, 0, 0⟩ [], .lsp 1 ⟨some 6, 0, 0⟩ []]), true, true⟩]]
        []]
    blocks := [cont (.lsp 2 ⟨some 9, 0, 1⟩ []) (.lsp 2 ⟨some 8, 0, 1⟩ []),
      cont (.lsp 2 ⟨some 11, 0, 1⟩ []) (.lsp 2 ⟨some 10, 0, 1⟩ [])] }

theorem twoInstancesOfTheSameModule_ok : meets twoInstancesOfTheSameModule [
    .path (chs "m.a") (chs "m.c") true, .path (chs "m.b") (chs "m.d") true, .path (chs "m.a") (chs "m.d") false,
    .path (chs "m.b") (chs "m.c") false, .path (chs "m.e") (chs "m.g") true, .path (chs "m.f") (chs "m.h") true,
    .path (chs "m.e") (chs "m.h") false, .path (chs "m.f") (chs "m.g") false, .path (chs "m.a") (chs "m.g") false,
    .path (chs "m.e") (chs "m.c") false] = true := by
  decide +kernel

/-- Two instances of a module with a generate-block local. tests/unit/InstanceTests.cpp:144-164. -/
def twoInstancesOfAModuleWith : Design' :=
  { sigs := [⟨chs "a", 1, true, chs "m.a"⟩, ⟨chs "b", 1, true, chs "m.b"⟩, ⟨chs "c", 1, true, chs "m.c"⟩, ⟨chs "d",
      1, true, chs "m.d"⟩, ⟨chs "i", 1, true, chs "m.u1.i"⟩, ⟨chs "o", 1, true, chs "m.u1.o"⟩, ⟨chs "mid", 1,
      false, chs "m.u1.g.mid"⟩, ⟨chs "i", 1, true, chs "m.u2.i"⟩, ⟨chs "o", 1, true, chs "m.u2.o"⟩, ⟨chs "mid", 1,
      false, chs "m.u2.g.mid"⟩]
    tree := [.inst false (chs "m") (chs "m") [.port ⟨100, some 0, .input, [⟨0, 0, true⟩]⟩, .port ⟨101, some 1,
        .input, [⟨0, 0, true⟩]⟩, .port ⟨102, some 2, .output, [⟨0, 0, false⟩]⟩, .port ⟨103, some 3, .output, [⟨0,
        0, false⟩]⟩, .inst false (chs "sub") (chs "m.u1") [.port ⟨104, some 4, .input, [⟨0, 0, true⟩]⟩, .port ⟨105,
        some 5, .output, [⟨0, 0, false⟩]⟩, .group false [blk 0, blk 1]]
        [⟨.port 104 (some 4), some (.lsp 1 ⟨some 0, 0, 0⟩ []), false, true⟩,
         ⟨.port 105 (some 5), some (.lsp 1 ⟨some 2, 0, 0⟩ []), true, true⟩],
             .inst false (chs "sub") (chs "m.u2") [.port ⟨107, some 7, .input, [⟨0, 0, true⟩]⟩, .port ⟨108, some 8,
             .output, [⟨0, 0, false⟩]⟩, .group false [blk 2, blk 3]]
        [⟨.port 107 (some 7), some (.lsp 1 ⟨some 1, 0, 0⟩ []), false, true⟩,
         ⟨.port 108 (some 8), some (.lsp 1 ⟨some 3, 0, 0⟩ []), true, true⟩]]
        []]
    blocks := [cont (.lsp 1 ⟨some 6, 0, 0⟩ []) (.other 1 none [⟨some 4, 0, 0⟩]),
      cont (.lsp 1 ⟨some 5, 0, 0⟩ []) (.lsp 1 ⟨some 6, 0, 0⟩ []),
      cont (.lsp 1 ⟨some 9, 0, 0⟩ []) (.other 1 none [⟨some 7, 0, 0⟩]),
      cont (.lsp 1 ⟨some 8, 0, 0⟩ []) (.lsp 1 ⟨some 9, 0, 0⟩ [])] }

theorem twoInstancesOfAModuleWith_ok : meets twoInstancesOfAModuleWith [
    .path (chs "m.a") (chs "m.c") true, .path (chs "m.b") (chs "m.d") true, .path (chs "m.a") (chs "m.d") false,
    .path (chs "m.b") (chs "m.c") false] = true := by
  decide +kernel

/-- Two instances of a module with a nested instance. tests/unit/InstanceTests.cpp:172-190. -/
def twoInstancesOfAModuleWith2 : Design' :=
  { sigs := [⟨chs "a", 1, true, chs "m.a"⟩, ⟨chs "b", 1, true, chs "m.b"⟩, ⟨chs "c", 1, true, chs "m.c"⟩, ⟨chs "d",
      1, true, chs "m.d"⟩, ⟨chs "i", 1, true, chs "m.u1.i"⟩, ⟨chs "o", 1, true, chs "m.u1.o"⟩, ⟨chs "x", 1, true,
      chs "m.u1.u_inv.x"⟩, ⟨chs "y", 1, true, chs "m.u1.u_inv.y"⟩, ⟨chs "i", 1, true, chs "m.u2.i"⟩, ⟨chs "o", 1,
      true, chs "m.u2.o"⟩, ⟨chs "x", 1, true, chs "m.u2.u_inv.x"⟩, ⟨chs "y", 1, true, chs "m.u2.u_inv.y"⟩]
    tree := [.inst false (chs "m") (chs "m") [.port ⟨100, some 0, .input, [⟨0, 0, true⟩]⟩, .port ⟨101, some 1,
        .input, [⟨0, 0, true⟩]⟩, .port ⟨102, some 2, .output, [⟨0, 0, false⟩]⟩, .port ⟨103, some 3, .output, [⟨0,
        0, false⟩]⟩, .inst false (chs "sub") (chs "m.u1") [.port ⟨104, some 4, .input, [⟨0, 0, true⟩]⟩, .port ⟨105,
        some 5, .output, [⟨0, 0, false⟩]⟩, .inst false (chs "inv") (chs "m.u1.u_inv") [.port ⟨106, some 6, .input,
        [⟨0, 0, true⟩]⟩, .port ⟨107, some 7, .output, [⟨0, 0, false⟩]⟩, blk 0]
        [⟨.port 106 (some 6), some (.lsp 1 ⟨some 4, 0, 0⟩ []), false, true⟩,
         ⟨.port 107 (some 7), some (.lsp 1 ⟨some 5, 0, 0⟩ []), true, true⟩]]
        [⟨.port 104 (some 4), some (.lsp 1 ⟨some 0, 0, 0⟩ []), false, true⟩,
         ⟨.port 105 (some 5), some (.lsp 1 ⟨some 2, 0, 0⟩ []), true, true⟩],
             .inst false (chs "sub") (chs "m.u2") [.port ⟨108, some 8, .input, [⟨0, 0, true⟩]⟩, .port ⟨109, some 9,
             .output, [⟨0, 0, false⟩]⟩, .inst false (chs "inv") (chs "m.u2.u_inv") [.port ⟨110, some 10, .input,
             [⟨0, 0, true⟩]⟩, .port ⟨111, some 11, .output, [⟨0, 0, false⟩]⟩, blk 1]
        [⟨.port 110 (some 10), some (.lsp 1 ⟨some 8, 0, 0⟩ []), false, true⟩,
         ⟨.port 111 (some 11), some (.lsp 1 ⟨some 9, 0, 0⟩ []), true, true⟩]]
        [⟨.port 108 (some 8), some (.lsp 1 ⟨some 1, 0, 0⟩ []), false, true⟩,
         ⟨.port 109 (some 9), some (.lsp 1 ⟨some 3, 0, 0⟩ []), true, true⟩]]
        []]
    blocks := [cont (.lsp 1 ⟨some 7, 0, 0⟩ []) (.other 1 none [⟨some 6, 0, 0⟩]),
      cont (.lsp 1 ⟨some 11, 0, 0⟩ []) (.other 1 none [⟨some 10, 0, 0⟩])] }

theorem twoInstancesOfAModuleWith2_ok : meets twoInstancesOfAModuleWith2 [
    .path (chs "m.a") (chs "m.c") true, .path (chs "m.b") (chs "m.d") true, .path (chs "m.a") (chs "m.d") false,
    .path (chs "m.b") (chs "m.c") false] = true := by
  decide +kernel

/-- Two instances of a module with an instance array. tests/unit/InstanceTests.cpp:196-214. -/
def twoInstancesOfAModuleWith3 : Design' :=
  { sigs := [⟨chs "a", 2, true, chs "m.a"⟩, ⟨chs "b", 2, true, chs "m.b"⟩, ⟨chs "c", 2, true, chs "m.c"⟩, ⟨chs "d",
      2, true, chs "m.d"⟩, ⟨chs "i", 2, true, chs "m.u1.i"⟩, ⟨chs "o", 2, true, chs "m.u1.o"⟩, ⟨chs "i", 1, true,
      chs "m.u1.u[0].i"⟩, ⟨chs "o", 1, true, chs "m.u1.u[0].o"⟩, ⟨chs "i", 1, true, chs "m.u1.u[1].i"⟩, ⟨chs "o",
      1, true, chs "m.u1.u[1].o"⟩, ⟨chs "i", 2, true, chs "m.u2.i"⟩, ⟨chs "o", 2, true, chs "m.u2.o"⟩, ⟨chs "i", 1,
      true, chs "m.u2.u[0].i"⟩, ⟨chs "o", 1, true, chs "m.u2.u[0].o"⟩, ⟨chs "i", 1, true, chs "m.u2.u[1].i"⟩,
      ⟨chs "o", 1, true, chs "m.u2.u[1].o"⟩]
    tree := [.inst false (chs "m") (chs "m") [.port ⟨100, some 0, .input, [⟨0, 1, true⟩]⟩, .port ⟨101, some 1,
        .input, [⟨0, 1, true⟩]⟩, .port ⟨102, some 2, .output, [⟨0, 1, false⟩]⟩, .port ⟨103, some 3, .output, [⟨0,
        1, false⟩]⟩, .inst false (chs "pair") (chs "m.u1") [.port ⟨104, some 4, .input, [⟨0, 1, true⟩]⟩,
        .port ⟨105, some 5, .output, [⟨0, 0, false⟩, ⟨1, 0, false⟩]⟩,
        .inst false (chs "sub") (chs "m.u1.u[0]") [.port ⟨106, some 6, .input, [⟨0, 0, true⟩]⟩, .port ⟨107, some 7,
        .output, [⟨0, 0, false⟩]⟩, blk 0]
        [⟨.port 106 (some 6), some (.lsp 1 ⟨some 4, 1, 0⟩ []), false, true⟩,
         ⟨.port 107 (some 7), some (.lsp 1 ⟨some 5, 1, 0⟩ []), true, true⟩],
             .inst false (chs "sub") (chs "m.u1.u[1]") [.port ⟨108, some 8, .input, [⟨0, 0, true⟩]⟩, .port ⟨109,
             some 9, .output, [⟨0, 0, false⟩]⟩, blk 1]
        [⟨.port 108 (some 8), some (.lsp 1 ⟨some 4, 0, 0⟩ []), false, true⟩,
         ⟨.port 109 (some 9), some (.lsp 1 ⟨some 5, 0, 0⟩ []), true, true⟩]]
        [⟨.port 104 (some 4), some (.lsp 2 ⟨some 0, 0, 1⟩ []), false, true⟩,
         ⟨.port 105 (some 5), some (.lsp 2 ⟨some 2, 0, 1⟩ []), true, true⟩],
             .inst false (chs "pair") (chs "m.u2") [.port ⟨110, some 10, .input, [⟨0, 1, true⟩]⟩, .port ⟨111,
             some 11, .output, [⟨0, 0, false⟩, ⟨1, 0, false⟩]⟩,
             .inst false (chs "sub") (chs "m.u2.u[0]") [.port ⟨112, some 12, .input, [⟨0, 0, true⟩]⟩, .port ⟨113,
             some 13, .output, [⟨0, 0, false⟩]⟩, blk 2]
        [⟨.port 112 (some 12), some (.lsp 1 ⟨some 10, 1, 0⟩ []), false, true⟩,
         ⟨.port 113 (some 13), some (.lsp 1 ⟨some 11, 1, 0⟩ []), true, true⟩],
             .inst false (chs "sub") (chs "m.u2.u[1]") [.port ⟨114, some 14, .input, [⟨0, 0, true⟩]⟩, .port ⟨115,
             some 15, .output, [⟨0, 0, false⟩]⟩, blk 3]
        [⟨.port 114 (some 14), some (.lsp 1 ⟨some 10, 0, 0⟩ []), false, true⟩,
         ⟨.port 115 (some 15), some (.lsp 1 ⟨some 11, 0, 0⟩ []), true, true⟩]]
        [⟨.port 110 (some 10), some (.lsp 2 ⟨some 1, 0, 1⟩ []), false, true⟩,
         ⟨.port 111 (some 11), some (.lsp 2 ⟨some 3, 0, 1⟩ []), true, true⟩]]
        []]
    blocks := [cont (.lsp 1 ⟨some 7, 0, 0⟩ []) (.other 1 none [⟨some 6, 0, 0⟩]),
      cont (.lsp 1 ⟨some 9, 0, 0⟩ []) (.other 1 none [⟨some 8, 0, 0⟩]),
      cont (.lsp 1 ⟨some 13, 0, 0⟩ []) (.other 1 none [⟨some 12, 0, 0⟩]),
      cont (.lsp 1 ⟨some 15, 0, 0⟩ []) (.other 1 none [⟨some 14, 0, 0⟩])] }

theorem twoInstancesOfAModuleWith3_ok : meets twoInstancesOfAModuleWith3 [
    .path (chs "m.a") (chs "m.c") true, .path (chs "m.b") (chs "m.d") true, .path (chs "m.a") (chs "m.d") false,
    .path (chs "m.b") (chs "m.c") false] = true := by
  decide +kernel

/-- Generate for loop instantiating submodules. tests/unit/InstanceTests.cpp:247-261. -/
def generateForLoopInstantiatingSubmodules : Design' :=
  { sigs := [⟨chs "a", 4, true, chs "m.a"⟩, ⟨chs "b", 4, true, chs "m.b"⟩, ⟨chs "a", 1, true, chs "m.gen[0].u.a"⟩,
      ⟨chs "b", 1, true, chs "m.gen[0].u.b"⟩, ⟨chs "a", 1, true, chs "m.gen[1].u.a"⟩, ⟨chs "b", 1, true,
      chs "m.gen[1].u.b"⟩, ⟨chs "a", 1, true, chs "m.gen[2].u.a"⟩, ⟨chs "b", 1, true, chs "m.gen[2].u.b"⟩,
      ⟨chs "a", 1, true, chs "m.gen[3].u.a"⟩, ⟨chs "b", 1, true, chs "m.gen[3].u.b"⟩]
    tree := [.inst false (chs "m") (chs "m") [.port ⟨100, some 0, .input, [⟨0, 3, true⟩]⟩, .port ⟨101, some 1,
        .output, [⟨0, 0, false⟩, ⟨1, 0, false⟩, ⟨2, 0, false⟩, ⟨3, 0, false⟩]⟩,
        .group false [.group false [.inst false (chs "inv") (chs "m.gen[0].u") [.port ⟨102, some 2, .input, [⟨0, 0,
        true⟩]⟩, .port ⟨103, some 3, .output, [⟨0, 0, false⟩]⟩, blk 0]
        [⟨.port 102 (some 2), some (.lsp 1 ⟨some 0, 0, 0⟩ []), false, true⟩,
         ⟨.port 103 (some 3), some (.lsp 1 ⟨some 1, 0, 0⟩ []), true, true⟩]],
             .group false [.inst false (chs "inv") (chs "m.gen[1].u") [.port ⟨104, some 4, .input, [⟨0, 0, true⟩]⟩,
             .port ⟨105, some 5, .output, [⟨0, 0, false⟩]⟩, blk 1]
        [⟨.port 104 (some 4), some (.lsp 1 ⟨some 0, 1, 0⟩ []), false, true⟩,
         ⟨.port 105 (some 5), some (.lsp 1 ⟨some 1, 1, 0⟩ []), true, true⟩]],
             .group false [.inst false (chs "inv") (chs "m.gen[2].u") [.port ⟨106, some 6, .input, [⟨0, 0, true⟩]⟩,
             .port ⟨107, some 7, .output, [⟨0, 0, false⟩]⟩, blk 2]
        [⟨.port 106 (some 6), some (.lsp 1 ⟨some 0, 2, 0⟩ []), false, true⟩,
         ⟨.port 107 (some 7), some (.lsp 1 ⟨some 1, 2, 0⟩ []), true, true⟩]],
             .group false [.inst false (chs "inv") (chs "m.gen[3].u") [.port ⟨108, some 8, .input, [⟨0, 0, true⟩]⟩,
             .port ⟨109, some 9, .output, [⟨0, 0, false⟩]⟩, blk 3]
        [⟨.port 108 (some 8), some (.lsp 1 ⟨some 0, 3, 0⟩ []), false, true⟩,
         ⟨.port 109 (some 9), some (.lsp 1 ⟨some 1, 3, 0⟩ []), true, true⟩]]]]
        []]
    blocks := [cont (.lsp 1 ⟨some 3, 0, 0⟩ []) (.other 1 none [⟨some 2, 0, 0⟩]),
      cont (.lsp 1 ⟨some 5, 0, 0⟩ []) (.other 1 none [⟨some 4, 0, 0⟩]),
      cont (.lsp 1 ⟨some 7, 0, 0⟩ []) (.other 1 none [⟨some 6, 0, 0⟩]),
      cont (.lsp 1 ⟨some 9, 0, 0⟩ []) (.other 1 none [⟨some 8, 0, 0⟩])] }

theorem generateForLoopInstantiatingSubmodules_ok : meets generateForLoopInstantiatingSubmodules [
    .path (chs "m.a") (chs "m.b") true] = true := by
  decide +kernel

/-- Three instances of the same module produce independent paths. tests/unit/InstanceTests.cpp:266-294. -/
def threeInstancesOfTheSameModule : Design' :=
  { sigs := [⟨chs "a", 1, true, chs "m.a"⟩, ⟨chs "b", 1, true, chs "m.b"⟩, ⟨chs "c", 1, true, chs "m.c"⟩, ⟨chs "x",
      1, true, chs "m.x"⟩, ⟨chs "y", 1, true, chs "m.y"⟩, ⟨chs "z", 1, true, chs "m.z"⟩, ⟨chs "i", 1, true,
      chs "m.u1.i"⟩, ⟨chs "o", 1, true, chs "m.u1.o"⟩, ⟨chs "i", 1, true, chs "m.u2.i"⟩, ⟨chs "o", 1, true,
      chs "m.u2.o"⟩, ⟨chs "i", 1, true, chs "m.u3.i"⟩, ⟨chs "o", 1, true, chs "m.u3.o"⟩]
    tree := [.inst false (chs "m") (chs "m") [.port ⟨100, some 0, .input, [⟨0, 0, true⟩]⟩, .port ⟨101, some 1,
        .input, [⟨0, 0, true⟩]⟩, .port ⟨102, some 2, .input, [⟨0, 0, true⟩]⟩, .port ⟨103, some 3, .output, [⟨0, 0,
        false⟩]⟩, .port ⟨104, some 4, .output, [⟨0, 0, false⟩]⟩, .port ⟨105, some 5, .output, [⟨0, 0, false⟩]⟩,
        .inst false (chs "sub") (chs "m.u1") [.port ⟨106, some 6, .input, [⟨0, 0, true⟩]⟩, .port ⟨107, some 7,
        .output, [⟨0, 0, false⟩]⟩, blk 0]
        [⟨.port 106 (some 6), some (.lsp 1 ⟨some 0, 0, 0⟩ []), false, true⟩,
         ⟨.port 107 (some 7), some (.lsp 1 ⟨some 3, 0, 0⟩ []), true, true⟩],
             .inst false (chs "sub") (chs "m.u2") [.port ⟨108, some 8, .input, [⟨0, 0, true⟩]⟩, .port ⟨109, some 9,
             .output, [⟨0, 0, false⟩]⟩, blk 1]
        [⟨.port 108 (some 8), some (.lsp 1 ⟨some 1, 0, 0⟩ []), false, true⟩,
         ⟨.port 109 (some 9), some (.lsp 1 ⟨some 4, 0, 0⟩ []), true, true⟩],
             .inst false (chs "sub") (chs "m.u3") [.port ⟨110, some 10, .input, [⟨0, 0, true⟩]⟩, .port ⟨111,
             some 11, .output, [⟨0, 0, false⟩]⟩, blk 2]
        [⟨.port 110 (some 10), some (.lsp 1 ⟨some 2, 0, 0⟩ []), false, true⟩,
         ⟨.port 111 (some 11), some (.lsp 1 ⟨some 5, 0, 0⟩ []), true, true⟩]]
        []]
    blocks := [cont (.lsp 1 ⟨some 7, 0, 0⟩ []) (.other 1 none [⟨some 6, 0, 0⟩]),
      cont (.lsp 1 ⟨some 9, 0, 0⟩ []) (.other 1 none [⟨some 8, 0, 0⟩]),
      cont (.lsp 1 ⟨some 11, 0, 0⟩ []) (.other 1 none [⟨some 10, 0, 0⟩])] }

theorem threeInstancesOfTheSameModule_ok : meets threeInstancesOfTheSameModule [
    .path (chs "m.a") (chs "m.x") true, .path (chs "m.b") (chs "m.y") true, .path (chs "m.c") (chs "m.z") true,
    .path (chs "m.a") (chs "m.y") false, .path (chs "m.b") (chs "m.z") false, .path (chs "m.c") (chs "m.x") false,
    .path (chs "m.a") (chs "m.z") false, .atLeast (chs "m.u1.o") 0 0 1, .atLeast (chs "m.u2.o") 0 0 1,
    .atLeast (chs "m.u3.o") 0 0 1] = true := by
  decide +kernel

/-- Two instances of a module with always_ff register. tests/unit/InstanceTests.cpp:300-323. -/
def twoInstancesOfAModuleWith4 : Design' :=
  { sigs := [⟨chs "clk", 1, true, chs "m.clk"⟩, ⟨chs "a", 1, true, chs "m.a"⟩, ⟨chs "b", 1, true, chs "m.b"⟩,
      ⟨chs "c", 1, true, chs "m.c"⟩, ⟨chs "d", 1, true, chs "m.d"⟩, ⟨chs "clk", 1, true, chs "m.u1.clk"⟩,
      ⟨chs "in", 1, true, chs "m.u1.in"⟩, ⟨chs "out", 1, true, chs "m.u1.out"⟩, ⟨chs "clk", 1, true,
      chs "m.u2.clk"⟩, ⟨chs "in", 1, true, chs "m.u2.in"⟩, ⟨chs "out", 1, true, chs "m.u2.out"⟩]
    tree := [.inst false (chs "m") (chs "m") [.port ⟨100, some 0, .input, [⟨0, 0, true⟩]⟩, .port ⟨101, some 1,
        .input, [⟨0, 0, true⟩]⟩, .port ⟨102, some 2, .input, [⟨0, 0, true⟩]⟩, .port ⟨103, some 3, .output, [⟨0, 0,
        false⟩]⟩, .port ⟨104, some 4, .output, [⟨0, 0, false⟩]⟩, .inst false (chs "sub") (chs "m.u1") [.port ⟨105,
        some 5, .input, [⟨0, 0, true⟩]⟩, .port ⟨106, some 6, .input, [⟨0, 0, true⟩]⟩, .port ⟨107, some 7, .output,
        [⟨0, 0, false⟩]⟩, blk 0]
        [⟨.port 105 (some 5), some (.lsp 1 ⟨some 0, 0, 0⟩ []), false, true⟩,
         ⟨.port 106 (some 6), some (.lsp 1 ⟨some 1, 0, 0⟩ []), false, true⟩,
         ⟨.port 107 (some 7), some (.lsp 1 ⟨some 3, 0, 0⟩ []), true, true⟩],
             .inst false (chs "sub") (chs "m.u2") [.port ⟨108, some 8, .input, [⟨0, 0, true⟩]⟩, .port ⟨109, some 9,
             .input, [⟨0, 0, true⟩]⟩, .port ⟨110, some 10, .output, [⟨0, 0, false⟩]⟩, blk 1]
        [⟨.port 108 (some 8), some (.lsp 1 ⟨some 0, 0, 0⟩ []), false, true⟩,
         ⟨.port 109 (some 9), some (.lsp 1 ⟨some 2, 0, 0⟩ []), false, true⟩,
         ⟨.port 110 (some 10), some (.lsp 1 ⟨some 4, 0, 0⟩ []), true, true⟩]]
        []]
    blocks := [.procedural .alwaysFF (.timed (.signalEvent ⟨.posEdge, some 5⟩)) (nba (.lsp 1 ⟨some 7, 0,
        0⟩ []) (.lsp 1 ⟨some 6, 0, 0⟩ [])),
      .procedural .alwaysFF (.timed (.signalEvent ⟨.posEdge, some 8⟩)) (nba (.lsp 1 ⟨some 10, 0,
          0⟩ []) (.lsp 1 ⟨some 9, 0, 0⟩ []))] }

theorem twoInstancesOfAModuleWith4_ok : meets twoInstancesOfAModuleWith4 [
    .path (chs "m.a") (chs "m.c") true, .path (chs "m.b") (chs "m.d") true, .path (chs "m.a") (chs "m.d") false,
    .path (chs "m.b") (chs "m.c") false, .atLeast (chs "m.u1.out") 0 0 1, .atLeast (chs "m.u2.out") 0 0 1,
    .distinct (chs "m.u1.out") 0 0 (chs "m.u2.out") 0 0] = true := by
  decide +kernel

/-- Two instances of a three-deep nested instance hierarchy. tests/unit/InstanceTests.cpp:330-359. -/
def twoInstancesOfAThreeDeep : Design' :=
  { sigs := [⟨chs "a", 1, true, chs "m.a"⟩, ⟨chs "b", 1, true, chs "m.b"⟩, ⟨chs "c", 1, true, chs "m.c"⟩, ⟨chs "d",
      1, true, chs "m.d"⟩, ⟨chs "si", 1, true, chs "m.u1.si"⟩, ⟨chs "so", 1, true, chs "m.u1.so"⟩, ⟨chs "mi", 1,
      true, chs "m.u1.u.mi"⟩, ⟨chs "mo", 1, true, chs "m.u1.u.mo"⟩, ⟨chs "x", 1, true, chs "m.u1.u.u.x"⟩, ⟨chs "y",
      1, true, chs "m.u1.u.u.y"⟩, ⟨chs "si", 1, true, chs "m.u2.si"⟩, ⟨chs "so", 1, true, chs "m.u2.so"⟩,
      ⟨chs "mi", 1, true, chs "m.u2.u.mi"⟩, ⟨chs "mo", 1, true, chs "m.u2.u.mo"⟩, ⟨chs "x", 1, true,
      chs "m.u2.u.u.x"⟩, ⟨chs "y", 1, true, chs "m.u2.u.u.y"⟩]
    tree := [.inst false (chs "m") (chs "m") [.port ⟨100, some 0, .input, [⟨0, 0, true⟩]⟩, .port ⟨101, some 1,
        .input, [⟨0, 0, true⟩]⟩, .port ⟨102, some 2, .output, [⟨0, 0, false⟩]⟩, .port ⟨103, some 3, .output, [⟨0,
        0, false⟩]⟩, .inst false (chs "sub") (chs "m.u1") [.port ⟨104, some 4, .input, [⟨0, 0, true⟩]⟩, .port ⟨105,
        some 5, .output, [⟨0, 0, false⟩]⟩, .inst false (chs "mid") (chs "m.u1.u") [.port ⟨106, some 6, .input, [⟨0,
        0, true⟩]⟩, .port ⟨107, some 7, .output, [⟨0, 0, false⟩]⟩,
        .inst false (chs "leaf") (chs "m.u1.u.u") [.port ⟨108, some 8, .input, [⟨0, 0, true⟩]⟩, .port ⟨109, some 9,
        .output, [⟨0, 0, false⟩]⟩, blk 0]
        [⟨.port 108 (some 8), some (.lsp 1 ⟨some 6, 0, 0⟩ []), false, true⟩,
         ⟨.port 109 (some 9), some (.lsp 1 ⟨some 7, 0, 0⟩ []), true, true⟩]]
        [⟨.port 106 (some 6), some (.lsp 1 ⟨some 4, 0, 0⟩ []), false, true⟩,
         ⟨.port 107 (some 7), some (.lsp 1 ⟨some 5, 0, 0⟩ []), true, true⟩]]
        [⟨.port 104 (some 4), some (.lsp 1 ⟨some 0, 0, 0⟩ []), false, true⟩,
         ⟨.port 105 (some 5), some (.lsp 1 ⟨some 2, 0, 0⟩ []), true, true⟩],
             .inst false (chs "sub") (chs "m.u2") [.port ⟨110, some 10, .input, [⟨0, 0, true⟩]⟩, .port ⟨111,
             some 11, .output, [⟨0, 0, false⟩]⟩, .inst false (chs "mid") (chs "m.u2.u") [.port ⟨112, some 12,
             .input, [⟨0, 0, true⟩]⟩, .port ⟨113, some 13, .output, [⟨0, 0, false⟩]⟩,
             .inst false (chs "leaf") (chs "m.u2.u.u") [.port ⟨114, some 14, .input, [⟨0, 0, true⟩]⟩, .port ⟨115,
             some 15, .output, [⟨0, 0, false⟩]⟩, blk 1]
        [⟨.port 114 (some 14), some (.lsp 1 ⟨some 12, 0, 0⟩ []), false, true⟩,
         ⟨.port 115 (some 15), some (.lsp 1 ⟨some 13, 0, 0⟩ []), true, true⟩]]
        [⟨.port 112 (some 12), some (.lsp 1 ⟨some 10, 0, 0⟩ []), false, true⟩,
         ⟨.port 113 (some 13), some (.lsp 1 ⟨some 11, 0, 0⟩ []), true, true⟩]]
        [⟨.port 110 (some 10), some (.lsp 1 ⟨some 1, 0, 0⟩ []), false, true⟩,
         ⟨.port 111 (some 11), some (.lsp 1 ⟨some 3, 0, 0⟩ []), true, true⟩]]
        []]
    blocks := [cont (.lsp 1 ⟨some 9, 0, 0⟩ []) (.other 1 none [⟨some 8, 0, 0⟩]),
      cont (.lsp 1 ⟨some 15, 0, 0⟩ []) (.other 1 none [⟨some 14, 0, 0⟩])] }

theorem twoInstancesOfAThreeDeep_ok : meets twoInstancesOfAThreeDeep [
    .path (chs "m.a") (chs "m.c") true, .path (chs "m.b") (chs "m.d") true, .path (chs "m.a") (chs "m.d") false,
    .path (chs "m.b") (chs "m.c") false, .atLeast (chs "m.u2.u.u.y") 0 0 1,
        .atLeast (chs "m.u1.u.u.y") 0 0 1] = true := by
  decide +kernel

/-- Two instances of a module containing an inner multi-instance pair. tests/unit/InstanceTests.cpp:367-397. -/
def twoInstancesOfAModuleContaining : Design' :=
  { sigs := [⟨chs "a", 2, true, chs "m.a"⟩, ⟨chs "b", 2, true, chs "m.b"⟩, ⟨chs "c", 2, true, chs "m.c"⟩, ⟨chs "d",
      2, true, chs "m.d"⟩, ⟨chs "i", 2, true, chs "m.u1.i"⟩, ⟨chs "o", 2, true, chs "m.u1.o"⟩, ⟨chs "x", 1, true,
      chs "m.u1.l0.x"⟩, ⟨chs "y", 1, true, chs "m.u1.l0.y"⟩, ⟨chs "x", 1, true, chs "m.u1.l1.x"⟩, ⟨chs "y", 1,
      true, chs "m.u1.l1.y"⟩, ⟨chs "i", 2, true, chs "m.u2.i"⟩, ⟨chs "o", 2, true, chs "m.u2.o"⟩, ⟨chs "x", 1,
      true, chs "m.u2.l0.x"⟩, ⟨chs "y", 1, true, chs "m.u2.l0.y"⟩, ⟨chs "x", 1, true, chs "m.u2.l1.x"⟩, ⟨chs "y",
      1, true, chs "m.u2.l1.y"⟩]
    tree := [.inst false (chs "m") (chs "m") [.port ⟨100, some 0, .input, [⟨0, 1, true⟩]⟩, .port ⟨101, some 1,
        .input, [⟨0, 1, true⟩]⟩, .port ⟨102, some 2, .output, [⟨0, 1, false⟩]⟩, .port ⟨103, some 3, .output, [⟨0,
        1, false⟩]⟩, .inst false (chs "sub") (chs "m.u1") [.port ⟨104, some 4, .input, [⟨0, 1, true⟩]⟩, .port ⟨105,
        some 5, .output, [⟨0, 0, false⟩, ⟨1, 0, false⟩]⟩, .inst false (chs "leaf") (chs "m.u1.l0") [.port ⟨106,
        some 6, .input, [⟨0, 0, true⟩]⟩, .port ⟨107, some 7, .output, [⟨0, 0, false⟩]⟩, blk 0]
        [⟨.port 106 (some 6), some (.lsp 1 ⟨some 4, 0, 0⟩ []), false, true⟩,
         ⟨.port 107 (some 7), some (.lsp 1 ⟨some 5, 0, 0⟩ []), true, true⟩],
             .inst false (chs "leaf") (chs "m.u1.l1") [.port ⟨108, some 8, .input, [⟨0, 0, true⟩]⟩, .port ⟨109,
             some 9, .output, [⟨0, 0, false⟩]⟩, blk 1]
        [⟨.port 108 (some 8), some (.lsp 1 ⟨some 4, 1, 0⟩ []), false, true⟩,
         ⟨.port 109 (some 9), some (.lsp 1 ⟨some 5, 1, 0⟩ []), true, true⟩]]
        [⟨.port 104 (some 4), some (.lsp 2 ⟨some 0, 0, 1⟩ []), false, true⟩,
         ⟨.port 105 (some 5), some (.lsp 2 ⟨some 2, 0, 1⟩ []), true, true⟩],
             .inst false (chs "sub") (chs "m.u2") [.port ⟨110, some 10, .input, [⟨0, 1, true⟩]⟩, .port ⟨111,
             some 11, .output, [⟨0, 0, false⟩, ⟨1, 0, false⟩]⟩,
             .inst false (chs "leaf") (chs "m.u2.l0") [.port ⟨112, some 12, .input, [⟨0, 0, true⟩]⟩, .port ⟨113,
             some 13, .output, [⟨0, 0, false⟩]⟩, blk 2]
        [⟨.port 112 (some 12), some (.lsp 1 ⟨some 10, 0, 0⟩ []), false, true⟩,
         ⟨.port 113 (some 13), some (.lsp 1 ⟨some 11, 0, 0⟩ []), true, true⟩],
             .inst false (chs "leaf") (chs "m.u2.l1") [.port ⟨114, some 14, .input, [⟨0, 0, true⟩]⟩, .port ⟨115,
             some 15, .output, [⟨0, 0, false⟩]⟩, blk 3]
        [⟨.port 114 (some 14), some (.lsp 1 ⟨some 10, 1, 0⟩ []), false, true⟩,
         ⟨.port 115 (some 15), some (.lsp 1 ⟨some 11, 1, 0⟩ []), true, true⟩]]
        [⟨.port 110 (some 10), some (.lsp 2 ⟨some 1, 0, 1⟩ []), false, true⟩,
         ⟨.port 111 (some 11), some (.lsp 2 ⟨some 3, 0, 1⟩ []), true, true⟩]]
        []]
    blocks := [cont (.lsp 1 ⟨some 7, 0, 0⟩ []) (.lsp 1 ⟨some 6, 0, 0⟩ []),
      cont (.lsp 1 ⟨some 9, 0, 0⟩ []) (.lsp 1 ⟨some 8, 0, 0⟩ []),
      cont (.lsp 1 ⟨some 13, 0, 0⟩ []) (.lsp 1 ⟨some 12, 0, 0⟩ []),
      cont (.lsp 1 ⟨some 15, 0, 0⟩ []) (.lsp 1 ⟨some 14, 0, 0⟩ [])] }

theorem twoInstancesOfAModuleContaining_ok : meets twoInstancesOfAModuleContaining [
    .path (chs "m.a") (chs "m.c") true, .path (chs "m.b") (chs "m.d") true, .path (chs "m.a") (chs "m.d") false,
    .path (chs "m.b") (chs "m.c") false, .atLeast (chs "m.d") 0 0 1, .atLeast (chs "m.d") 1 1 1,
    .atLeast (chs "m.u1.l0.y") 0 0 1, .atLeast (chs "m.u1.l1.y") 0 0 1, .atLeast (chs "m.u2.l0.y") 0 0 1,
    .atLeast (chs "m.u2.l1.y") 0 0 1] = true := by
  decide +kernel

/-- Two instances with always_comb case-driven outputs. tests/unit/InstanceTests.cpp:403-433. -/
def twoInstancesWithAlwaysCombCase : Design' :=
  { sigs := [⟨chs "s1", 1, true, chs "m.s1"⟩, ⟨chs "s2", 1, true, chs "m.s2"⟩, ⟨chs "x", 2, true, chs "m.x"⟩,
      ⟨chs "y", 2, true, chs "m.y"⟩, ⟨chs "p", 2, true, chs "m.p"⟩, ⟨chs "q", 2, true, chs "m.q"⟩, ⟨chs "r1", 2,
      true, chs "m.r1"⟩, ⟨chs "r2", 2, true, chs "m.r2"⟩, ⟨chs "s", 1, true, chs "m.u1.s"⟩, ⟨chs "a", 2, true,
      chs "m.u1.a"⟩, ⟨chs "b", 2, true, chs "m.u1.b"⟩, ⟨chs "o", 2, true, chs "m.u1.o"⟩, ⟨chs "s", 1, true,
      chs "m.u2.s"⟩, ⟨chs "a", 2, true, chs "m.u2.a"⟩, ⟨chs "b", 2, true, chs "m.u2.b"⟩, ⟨chs "o", 2, true,
      chs "m.u2.o"⟩]
    tree := [.inst false (chs "m") (chs "m") [.port ⟨100, some 0, .input, [⟨0, 0, true⟩]⟩, .port ⟨101, some 1,
        .input, [⟨0, 0, true⟩]⟩, .port ⟨102, some 2, .input, [⟨0, 1, true⟩]⟩, .port ⟨103, some 3, .input, [⟨0, 1,
        true⟩]⟩, .port ⟨104, some 4, .input, [⟨0, 1, true⟩]⟩, .port ⟨105, some 5, .input, [⟨0, 1, true⟩]⟩,
        .port ⟨106, some 6, .output, [⟨0, 1, false⟩]⟩, .port ⟨107, some 7, .output, [⟨0, 1, false⟩]⟩,
        .inst false (chs "sub") (chs "m.u1") [.port ⟨108, some 8, .input, [⟨0, 0, true⟩]⟩, .port ⟨109, some 9,
        .input, [⟨0, 1, true⟩]⟩, .port ⟨110, some 10, .input, [⟨0, 1, true⟩]⟩, .port ⟨111, some 11, .output, [⟨0,
        1, false⟩]⟩, blk 0]
        [⟨.port 108 (some 8), some (.lsp 1 ⟨some 0, 0, 0⟩ []), false, true⟩,
         ⟨.port 109 (some 9), some (.lsp 2 ⟨some 2, 0, 1⟩ []), false, true⟩,
         ⟨.port 110 (some 10), some (.lsp 2 ⟨some 3, 0, 1⟩ []), false, true⟩,
         ⟨.port 111 (some 11), some (.lsp 2 ⟨some 6, 0, 1⟩ []), true, true⟩],
             .inst false (chs "sub") (chs "m.u2") [.port ⟨112, some 12, .input, [⟨0, 0, true⟩]⟩, .port ⟨113,
             some 13, .input, [⟨0, 1, true⟩]⟩, .port ⟨114, some 14, .input, [⟨0, 1, true⟩]⟩, .port ⟨115, some 15,
             .output, [⟨0, 1, false⟩]⟩, blk 1]
        [⟨.port 112 (some 12), some (.lsp 1 ⟨some 1, 0, 0⟩ []), false, true⟩,
         ⟨.port 113 (some 13), some (.lsp 2 ⟨some 4, 0, 1⟩ []), false, true⟩,
         ⟨.port 114 (some 14), some (.lsp 2 ⟨some 5, 0, 1⟩ []), false, true⟩,
         ⟨.port 115 (some 15), some (.lsp 2 ⟨some 7, 0, 1⟩ []), true, true⟩]]
        []]
    blocks := [.procedural .alwaysComb .other (.cond true {} [.lsp 1 ⟨some 8, 0, 0⟩ [],
        .other 1 (some [.zero]) []] (.choose true (ba (.lsp 2 ⟨some 11, 0, 1⟩ []) (.lsp 2 ⟨some 9, 0,
        1⟩ [])) (ba (.lsp 2 ⟨some 11, 0, 1⟩ []) (.lsp 2 ⟨some 10, 0, 1⟩ [])))),
      .procedural .alwaysComb .other (.cond true {} [.lsp 1 ⟨some 12, 0, 0⟩ [],
          .other 1 (some [.zero]) []] (.choose true (ba (.lsp 2 ⟨some 15, 0, 1⟩ []) (.lsp 2 ⟨some 13, 0,
          1⟩ [])) (ba (.lsp 2 ⟨some 15, 0, 1⟩ []) (.lsp 2 ⟨some 14, 0, 1⟩ []))))] }

theorem twoInstancesWithAlwaysCombCase_ok : meets twoInstancesWithAlwaysCombCase [
    .path (chs "m.x") (chs "m.r1") true, .path (chs "m.y") (chs "m.r1") true, .path (chs "m.s1") (chs "m.r1") true,
    .path (chs "m.p") (chs "m.r2") true, .path (chs "m.q") (chs "m.r2") true, .path (chs "m.s2") (chs "m.r2") true,
    .path (chs "m.x") (chs "m.r2") false, .path (chs "m.p") (chs "m.r1") false,
    .path (chs "m.s1") (chs "m.r2") false, .path (chs "m.s2") (chs "m.r1") false] = true := by
  decide +kernel

/-- Two instances containing instance array inside generate block. tests/unit/InstanceTests.cpp:439-462. -/
def twoInstancesContainingInstanceArrayInside : Design' :=
  { sigs := [⟨chs "a", 2, true, chs "m.a"⟩, ⟨chs "b", 2, true, chs "m.b"⟩, ⟨chs "c", 2, true, chs "m.c"⟩, ⟨chs "d",
      2, true, chs "m.d"⟩, ⟨chs "i", 2, true, chs "m.u1.i"⟩, ⟨chs "o", 2, true, chs "m.u1.o"⟩, ⟨chs "x", 1, true,
      chs "m.u1.g.u[0].x"⟩, ⟨chs "y", 1, true, chs "m.u1.g.u[0].y"⟩, ⟨chs "x", 1, true, chs "m.u1.g.u[1].x"⟩,
      ⟨chs "y", 1, true, chs "m.u1.g.u[1].y"⟩, ⟨chs "i", 2, true, chs "m.u2.i"⟩, ⟨chs "o", 2, true, chs "m.u2.o"⟩,
      ⟨chs "x", 1, true, chs "m.u2.g.u[0].x"⟩, ⟨chs "y", 1, true, chs "m.u2.g.u[0].y"⟩, ⟨chs "x", 1, true,
      chs "m.u2.g.u[1].x"⟩, ⟨chs "y", 1, true, chs "m.u2.g.u[1].y"⟩]
    tree := [.inst false (chs "m") (chs "m") [.port ⟨100, some 0, .input, [⟨0, 1, true⟩]⟩, .port ⟨101, some 1,
        .input, [⟨0, 1, true⟩]⟩, .port ⟨102, some 2, .output, [⟨0, 1, false⟩]⟩, .port ⟨103, some 3, .output, [⟨0,
        1, false⟩]⟩, .inst false (chs "sub") (chs "m.u1") [.port ⟨104, some 4, .input, [⟨0, 1, true⟩]⟩, .port ⟨105,
        some 5, .output, [⟨0, 0, false⟩, ⟨1, 0, false⟩]⟩,
        .group false [.inst false (chs "leaf") (chs "m.u1.g.u[0]") [.port ⟨106, some 6, .input, [⟨0, 0, true⟩]⟩,
        .port ⟨107, some 7, .output, [⟨0, 0, false⟩]⟩, blk 0]
        [⟨.port 106 (some 6), some (.lsp 1 ⟨some 4, 1, 0⟩ []), false, true⟩,
         ⟨.port 107 (some 7), some (.lsp 1 ⟨some 5, 1, 0⟩ []), true, true⟩],
             .inst false (chs "leaf") (chs "m.u1.g.u[1]") [.port ⟨108, some 8, .input, [⟨0, 0, true⟩]⟩, .port ⟨109,
             some 9, .output, [⟨0, 0, false⟩]⟩, blk 1]
        [⟨.port 108 (some 8), some (.lsp 1 ⟨some 4, 0, 0⟩ []), false, true⟩,
         ⟨.port 109 (some 9), some (.lsp 1 ⟨some 5, 0, 0⟩ []), true, true⟩]]]
        [⟨.port 104 (some 4), some (.lsp 2 ⟨some 0, 0, 1⟩ []), false, true⟩,
         ⟨.port 105 (some 5), some (.lsp 2 ⟨some 2, 0, 1⟩ []), true, true⟩],
             .inst false (chs "sub") (chs "m.u2") [.port ⟨110, some 10, .input, [⟨0, 1, true⟩]⟩, .port ⟨111,
             some 11, .output, [⟨0, 0, false⟩, ⟨1, 0, false⟩]⟩,
             .group false [.inst false (chs "leaf") (chs "m.u2.g.u[0]") [.port ⟨112, some 12, .input, [⟨0, 0,
             true⟩]⟩, .port ⟨113, some 13, .output, [⟨0, 0, false⟩]⟩, blk 2]
        [⟨.port 112 (some 12), some (.lsp 1 ⟨some 10, 1, 0⟩ []), false, true⟩,
         ⟨.port 113 (some 13), some (.lsp 1 ⟨some 11, 1, 0⟩ []), true, true⟩],
             .inst false (chs "leaf") (chs "m.u2.g.u[1]") [.port ⟨114, some 14, .input, [⟨0, 0, true⟩]⟩,
             .port ⟨115, some 15, .output, [⟨0, 0, false⟩]⟩, blk 3]
        [⟨.port 114 (some 14), some (.lsp 1 ⟨some 10, 0, 0⟩ []), false, true⟩,
         ⟨.port 115 (some 15), some (.lsp 1 ⟨some 11, 0, 0⟩ []), true, true⟩]]]
        [⟨.port 110 (some 10), some (.lsp 2 ⟨some 1, 0, 1⟩ []), false, true⟩,
         ⟨.port 111 (some 11), some (.lsp 2 ⟨some 3, 0, 1⟩ []), true, true⟩]]
        []]
    blocks := [cont (.lsp 1 ⟨some 7, 0, 0⟩ []) (.lsp 1 ⟨some 6, 0, 0⟩ []),
      cont (.lsp 1 ⟨some 9, 0, 0⟩ []) (.lsp 1 ⟨some 8, 0, 0⟩ []),
      cont (.lsp 1 ⟨some 13, 0, 0⟩ []) (.lsp 1 ⟨some 12, 0, 0⟩ []),
      cont (.lsp 1 ⟨some 15, 0, 0⟩ []) (.lsp 1 ⟨some 14, 0, 0⟩ [])] }

theorem twoInstancesContainingInstanceArrayInside_ok : meets twoInstancesContainingInstanceArrayInside [
    .path (chs "m.a") (chs "m.c") true, .path (chs "m.b") (chs "m.d") true, .path (chs "m.a") (chs "m.d") false,
    .path (chs "m.b") (chs "m.c") false] = true := by
  decide +kernel

/-- Two instances with bit-aligned partial drives in always_comb. tests/unit/InstanceTests.cpp:467-490. -/
def twoInstancesWithBitAlignedPartial : Design' :=
  { sigs := [⟨chs "a", 4, true, chs "m.a"⟩, ⟨chs "b", 4, true, chs "m.b"⟩, ⟨chs "c", 4, true, chs "m.c"⟩, ⟨chs "d",
      4, true, chs "m.d"⟩, ⟨chs "in", 4, true, chs "m.u1.in"⟩, ⟨chs "out", 4, true, chs "m.u1.out"⟩, ⟨chs "in", 4,
      true, chs "m.u2.in"⟩, ⟨chs "out", 4, true, chs "m.u2.out"⟩]
    tree := [.inst false (chs "m") (chs "m") [.port ⟨100, some 0, .input, [⟨0, 3, true⟩]⟩, .port ⟨101, some 1,
        .input, [⟨0, 3, true⟩]⟩, .port ⟨102, some 2, .output, [⟨0, 3, false⟩]⟩, .port ⟨103, some 3, .output, [⟨0,
        3, false⟩]⟩, .inst false (chs "sub") (chs "m.u1") [.port ⟨104, some 4, .input, [⟨0, 3, true⟩]⟩, .port ⟨105,
        some 5, .output, [⟨0, 1, false⟩, ⟨2, 1, false⟩]⟩, blk 0]
        [⟨.port 104 (some 4), some (.lsp 4 ⟨some 0, 0, 3⟩ []), false, true⟩,
         ⟨.port 105 (some 5), some (.lsp 4 ⟨some 2, 0, 3⟩ []), true, true⟩],
             .inst false (chs "sub") (chs "m.u2") [.port ⟨106, some 6, .input, [⟨0, 3, true⟩]⟩, .port ⟨107, some 7,
             .output, [⟨0, 1, false⟩, ⟨2, 1, false⟩]⟩, blk 1]
        [⟨.port 106 (some 6), some (.lsp 4 ⟨some 1, 0, 3⟩ []), false, true⟩,
         ⟨.port 107 (some 7), some (.lsp 4 ⟨some 3, 0, 3⟩ []), true, true⟩]]
        []]
    blocks := [.procedural .alwaysComb .other (sq [ba (.lsp 2 ⟨some 5, 0, 1⟩ []) (.lsp 2 ⟨some 4, 2, 1⟩ []),
        ba (.lsp 2 ⟨some 5, 2, 1⟩ []) (.lsp 2 ⟨some 4, 0, 1⟩ [])]),
      .procedural .alwaysComb .other (sq [ba (.lsp 2 ⟨some 7, 0, 1⟩ []) (.lsp 2 ⟨some 6, 2, 1⟩ []),
          ba (.lsp 2 ⟨some 7, 2, 1⟩ []) (.lsp 2 ⟨some 6, 0, 1⟩ [])])] }

theorem twoInstancesWithBitAlignedPartial_ok : meets twoInstancesWithBitAlignedPartial [
    .path (chs "m.a") (chs "m.c") true, .path (chs "m.b") (chs "m.d") true, .path (chs "m.a") (chs "m.d") false,
    .path (chs "m.b") (chs "m.c") false, .atLeast (chs "m.u1.out") 0 0 1,
        .atLeast (chs "m.u2.out") 0 0 1] = true := by
  decide +kernel

/-- Ports of nested multi-instances are looked up by hierarchical path. tests/unit/InstanceTests.cpp:497-583. -/
def portsOfNestedMultiInstancesAre : Design' :=
  { sigs := [⟨chs "a", 2, true, chs "top.a"⟩, ⟨chs "b", 2, true, chs "top.b"⟩, ⟨chs "c", 2, true, chs "top.c"⟩,
      ⟨chs "d", 2, true, chs "top.d"⟩, ⟨chs "mi", 2, true, chs "top.u1.mi"⟩, ⟨chs "mo", 2, true, chs "top.u1.mo"⟩,
      ⟨chs "x", 1, true, chs "top.u1.l0.x"⟩, ⟨chs "y", 1, true, chs "top.u1.l0.y"⟩, ⟨chs "x", 1, true,
      chs "top.u1.l1.x"⟩, ⟨chs "y", 1, true, chs "top.u1.l1.y"⟩, ⟨chs "mi", 2, true, chs "top.u2.mi"⟩, ⟨chs "mo",
      2, true, chs "top.u2.mo"⟩, ⟨chs "x", 1, true, chs "top.u2.l0.x"⟩, ⟨chs "y", 1, true, chs "top.u2.l0.y"⟩,
      ⟨chs "x", 1, true, chs "top.u2.l1.x"⟩, ⟨chs "y", 1, true, chs "top.u2.l1.y"⟩]
    tree := [.inst false (chs "top") (chs "top") [.port ⟨100, some 0, .input, [⟨0, 1, true⟩]⟩, .port ⟨101, some 1,
        .input, [⟨0, 1, true⟩]⟩, .port ⟨102, some 2, .output, [⟨0, 1, false⟩]⟩, .port ⟨103, some 3, .output, [⟨0,
        1, false⟩]⟩, .inst false (chs "mid") (chs "top.u1") [.port ⟨104, some 4, .input, [⟨0, 1, true⟩]⟩,
        .port ⟨105, some 5, .output, [⟨0, 0, false⟩, ⟨1, 0, false⟩]⟩,
        .inst false (chs "leaf") (chs "top.u1.l0") [.port ⟨106, some 6, .input, [⟨0, 0, true⟩]⟩, .port ⟨107,
        some 7, .output, [⟨0, 0, false⟩]⟩, blk 0]
        [⟨.port 106 (some 6), some (.lsp 1 ⟨some 4, 0, 0⟩ []), false, true⟩,
         ⟨.port 107 (some 7), some (.lsp 1 ⟨some 5, 0, 0⟩ []), true, true⟩],
             .inst false (chs "leaf") (chs "top.u1.l1") [.port ⟨108, some 8, .input, [⟨0, 0, true⟩]⟩, .port ⟨109,
             some 9, .output, [⟨0, 0, false⟩]⟩, blk 1]
        [⟨.port 108 (some 8), some (.lsp 1 ⟨some 4, 1, 0⟩ []), false, true⟩,
         ⟨.port 109 (some 9), some (.lsp 1 ⟨some 5, 1, 0⟩ []), true, true⟩]]
        [⟨.port 104 (some 4), some (.lsp 2 ⟨some 0, 0, 1⟩ []), false, true⟩,
         ⟨.port 105 (some 5), some (.lsp 2 ⟨some 2, 0, 1⟩ []), true, true⟩],
             .inst false (chs "mid") (chs "top.u2") [.port ⟨110, some 10, .input, [⟨0, 1, true⟩]⟩, .port ⟨111,
             some 11, .output, [⟨0, 0, false⟩, ⟨1, 0, false⟩]⟩,
             .inst false (chs "leaf") (chs "top.u2.l0") [.port ⟨112, some 12, .input, [⟨0, 0, true⟩]⟩, .port ⟨113,
             some 13, .output, [⟨0, 0, false⟩]⟩, blk 2]
        [⟨.port 112 (some 12), some (.lsp 1 ⟨some 10, 0, 0⟩ []), false, true⟩,
         ⟨.port 113 (some 13), some (.lsp 1 ⟨some 11, 0, 0⟩ []), true, true⟩],
             .inst false (chs "leaf") (chs "top.u2.l1") [.port ⟨114, some 14, .input, [⟨0, 0, true⟩]⟩, .port ⟨115,
             some 15, .output, [⟨0, 0, false⟩]⟩, blk 3]
        [⟨.port 114 (some 14), some (.lsp 1 ⟨some 10, 1, 0⟩ []), false, true⟩,
         ⟨.port 115 (some 15), some (.lsp 1 ⟨some 11, 1, 0⟩ []), true, true⟩]]
        [⟨.port 110 (some 10), some (.lsp 2 ⟨some 1, 0, 1⟩ []), false, true⟩,
         ⟨.port 111 (some 11), some (.lsp 2 ⟨some 3, 0, 1⟩ []), true, true⟩]]
        []]
    blocks := [cont (.lsp 1 ⟨some 7, 0, 0⟩ []) (.other 1 none [⟨some 6, 0, 0⟩]),
      cont (.lsp 1 ⟨some 9, 0, 0⟩ []) (.other 1 none [⟨some 8, 0, 0⟩]),
      cont (.lsp 1 ⟨some 13, 0, 0⟩ []) (.other 1 none [⟨some 12, 0, 0⟩]),
      cont (.lsp 1 ⟨some 15, 0, 0⟩ []) (.other 1 none [⟨some 14, 0, 0⟩])] }

theorem portsOfNestedMultiInstancesAre_ok : meets portsOfNestedMultiInstancesAre [
    .path (chs "top.a") (chs "top.c") true, .path (chs "top.b") (chs "top.d") true,
    .path (chs "top.a") (chs "top.d") false, .path (chs "top.b") (chs "top.c") false,
    .ports (chs "top.a") .input 2, .ports (chs "top.b") .input 2, .ports (chs "top.c") .output 2,
    .ports (chs "top.d") .output 2, .ports (chs "top.u1.mi") .input 2, .ports (chs "top.u1.mo") .output 2,
    .ports (chs "top.u2.mi") .input 2, .ports (chs "top.u2.mo") .output 2, .ports (chs "top.u1.l0.x") .input 1,
    .ports (chs "top.u1.l0.y") .output 1, .ports (chs "top.u1.l1.x") .input 1,
    .ports (chs "top.u1.l1.y") .output 1, .ports (chs "top.u2.l0.x") .input 1,
    .ports (chs "top.u2.l0.y") .output 1, .ports (chs "top.u2.l1.x") .input 1,
        .ports (chs "top.u2.l1.y") .output 1] = true := by
  decide +kernel

/-- Multiple assignments to an output port. tests/unit/PortTests.cpp:3-12. -/
def multipleAssignmentsToAnOutputPort : Design' :=
  { sigs := [⟨chs "in", 1, true, chs "m.in"⟩, ⟨chs "out", 2, true, chs "m.out"⟩]
    tree := [.inst false (chs "m") (chs "m") [.port ⟨100, some 0, .input, [⟨0, 0, true⟩]⟩, .port ⟨101, some 1,
        .output, [⟨0, 0, false⟩, ⟨1, 0, false⟩]⟩, blk 0, blk 1]
        []]
    blocks := [cont (.lsp 1 ⟨some 1, 0, 0⟩ []) (.lsp 1 ⟨some 0, 0, 0⟩ []),
      cont (.lsp 1 ⟨some 1, 1, 0⟩ []) (.lsp 1 ⟨some 0, 0, 0⟩ [])] }

theorem multipleAssignmentsToAnOutputPort_ok : meets multipleAssignmentsToAnOutputPort [
    .path (chs "m.in") (chs "m.out") true] = true := by
  decide +kernel

/-- Multiple assignments from an input port. tests/unit/PortTests.cpp:14-22. -/
def multipleAssignmentsFromAnInputPort : Design' :=
  { sigs := [⟨chs "in", 2, true, chs "m.in"⟩, ⟨chs "out", 1, true, chs "m.out"⟩]
    tree := [.inst false (chs "m") (chs "m") [.port ⟨100, some 0, .input, [⟨0, 1, true⟩]⟩, .port ⟨101, some 1,
        .output, [⟨0, 0, false⟩]⟩, blk 0]
        []]
    blocks := [cont (.lsp 1 ⟨some 1, 0, 0⟩ []) (.conv 1 false none (.concat 2 [.lsp 1 ⟨some 0, 0, 0⟩ [],
        .lsp 1 ⟨some 0, 1, 0⟩ []]))] }

theorem multipleAssignmentsFromAnInputPort_ok : meets multipleAssignmentsFromAnInputPort [
    .path (chs "m.in") (chs "m.out") true] = true := by
  decide +kernel

/-- Registered output port. tests/unit/PortTests.cpp:67-105. -/
def registeredOutputPort : Design' :=
  { sigs := [⟨chs "clk", 1, true, chs "m.clk"⟩, ⟨chs "rst", 1, true, chs "m.rst"⟩, ⟨chs "foo", 1, true,
      chs "m.foo"⟩, ⟨chs "foo_q", 1, true, chs "m.foo_q"⟩]
    tree := [.inst false (chs "m") (chs "m") [.port ⟨100, some 0, .input, [⟨0, 0, true⟩]⟩, .port ⟨101, some 1,
        .input, [⟨0, 0, true⟩]⟩, .port ⟨102, some 2, .input, [⟨0, 0, true⟩]⟩, .port ⟨103, some 3, .output, [⟨0, 0,
        false⟩]⟩, blk 0]
        []]
    blocks := [.procedural .alwaysFF (.timed (.eventList [some ⟨.posEdge, some 0⟩, some ⟨.posEdge,
        some 1⟩])) (ite (.lsp 1 ⟨some 1, 0, 0⟩ []) (nba (.lsp 1 ⟨some 3, 0,
        0⟩ []) (.conv 1 false (some [.zero]) (.other 32 (some [.zero, .zero, .zero, .zero, .zero, .zero, .zero,
        .zero, .zero, .zero, .zero, .zero, .zero, .zero, .zero, .zero, .zero, .zero, .zero, .zero, .zero, .zero,
        .zero, .zero, .zero, .zero, .zero, .zero, .zero, .zero, .zero, .zero]) []))) (nba (.lsp 1 ⟨some 3, 0,
        0⟩ []) (.lsp 1 ⟨some 2, 0, 0⟩ [])))] }

theorem registeredOutputPort_ok : meets registeredOutputPort [
    .path (chs "m.foo") (chs "m.foo_q") true, .path (chs "m.rst") (chs "m.foo_q") true] = true := by
  decide +kernel

/-- Black-boxing a leaf module breaks paths through it. tests/unit/BlackBoxTests.cpp:3-32. -/
def blackBoxingALeafModuleBreaks : Design' :=
  { opts := { boxes := [chs "foo"] }
    sigs := [⟨chs "a", 1, true, chs "top.a"⟩, ⟨chs "b", 1, true, chs "top.b"⟩, ⟨chs "c", 1, true, chs "top.c"⟩,
        ⟨chs "x", 1, true, chs "top.u_mux.x"⟩, ⟨chs "y", 1, true, chs "top.u_mux.y"⟩, ⟨chs "z", 1, true,
        chs "top.u_mux.z"⟩]
    tree := [.inst false (chs "top") (chs "top") [.port ⟨100, some 0, .input, [⟨0, 0, true⟩]⟩, .port ⟨101, some 1,
        .input, [⟨0, 0, true⟩]⟩, .port ⟨102, some 2, .output, [⟨0, 0, false⟩]⟩,
        .inst false (chs "foo") (chs "top.u_mux") [.port ⟨103, some 3, .input, [⟨0, 0, true⟩]⟩, .port ⟨104, some 4,
        .input, [⟨0, 0, true⟩]⟩, .port ⟨105, some 5, .output, [⟨0, 0, false⟩]⟩, blk 0]
        [⟨.port 103 (some 3), some (.lsp 1 ⟨some 0, 0, 0⟩ []), false, true⟩,
         ⟨.port 104 (some 4), some (.lsp 1 ⟨some 1, 0, 0⟩ []), false, true⟩,
         ⟨.port 105 (some 5), some (.lsp 1 ⟨some 2, 0, 0⟩ []), true, true⟩]]
        []]
    blocks := [cont (.lsp 1 ⟨some 5, 0, 0⟩ []) (.other 1 none [⟨some 3, 0, 0⟩, ⟨some 4, 0, 0⟩])] }

theorem blackBoxingALeafModuleBreaks_ok : meets blackBoxingALeafModuleBreaks [
    .path (chs "top.a") (chs "top.u_mux.x") true, .path (chs "top.b") (chs "top.u_mux.y") true,
    .path (chs "top.u_mux.z") (chs "top.c") true, .path (chs "top.a") (chs "top.c") false,
    .path (chs "top.b") (chs "top.c") false, .path (chs "top.u_mux.x") (chs "top.u_mux.z") false,
    .path (chs "top.u_mux.y") (chs "top.u_mux.z") false] = true := by
  decide +kernel

/-- Black-boxing by hierarchical instance path matches one instance. tests/unit/BlackBoxTests.cpp:34-57. -/
def blackBoxingByHierarchicalInstancePath : Design' :=
  { opts := { boxes := [chs "top.u_a"] }
    sigs := [⟨chs "a", 1, true, chs "top.a"⟩, ⟨chs "c", 1, true, chs "top.c"⟩, ⟨chs "mid", 1, false,
        chs "top.mid"⟩, ⟨chs "i", 1, true, chs "top.u_a.i"⟩, ⟨chs "o", 1, true, chs "top.u_a.o"⟩, ⟨chs "i", 1,
        true, chs "top.u_b.i"⟩, ⟨chs "o", 1, true, chs "top.u_b.o"⟩]
    tree := [.inst false (chs "top") (chs "top") [.port ⟨100, some 0, .input, [⟨0, 0, true⟩]⟩, .port ⟨101, some 1,
        .output, [⟨0, 0, false⟩]⟩, .inst false (chs "passthrough") (chs "top.u_a") [.port ⟨103, some 3, .input,
        [⟨0, 0, true⟩]⟩, .port ⟨104, some 4, .output, [⟨0, 0, false⟩]⟩, blk 0]
        [⟨.port 103 (some 3), some (.lsp 1 ⟨some 0, 0, 0⟩ []), false, true⟩,
         ⟨.port 104 (some 4), some (.lsp 1 ⟨some 2, 0, 0⟩ []), true, true⟩],
             .inst false (chs "passthrough") (chs "top.u_b") [.port ⟨105, some 5, .input, [⟨0, 0, true⟩]⟩,
             .port ⟨106, some 6, .output, [⟨0, 0, false⟩]⟩, blk 1]
        [⟨.port 105 (some 5), some (.lsp 1 ⟨some 2, 0, 0⟩ []), false, true⟩,
         ⟨.port 106 (some 6), some (.lsp 1 ⟨some 1, 0, 0⟩ []), true, true⟩]]
        []]
    blocks := [cont (.lsp 1 ⟨some 4, 0, 0⟩ []) (.lsp 1 ⟨some 3, 0, 0⟩ []),
      cont (.lsp 1 ⟨some 6, 0, 0⟩ []) (.lsp 1 ⟨some 5, 0, 0⟩ [])] }

theorem blackBoxingByHierarchicalInstancePath_ok : meets blackBoxingByHierarchicalInstancePath [
    .path (chs "top.u_a.i") (chs "top.u_a.o") false, .path (chs "top.u_b.i") (chs "top.u_b.o") true,
    .path (chs "top.a") (chs "top.c") false] = true := by
  decide +kernel

/-- Black-boxing by definition name matches every instance. tests/unit/BlackBoxTests.cpp:59-80. -/
def blackBoxingByDefinitionNameMatches : Design' :=
  { opts := { boxes := [chs "passthrough"] }
    sigs := [⟨chs "a", 1, true, chs "top.a"⟩, ⟨chs "c", 1, true, chs "top.c"⟩, ⟨chs "mid", 1, false,
        chs "top.mid"⟩, ⟨chs "i", 1, true, chs "top.u_a.i"⟩, ⟨chs "o", 1, true, chs "top.u_a.o"⟩, ⟨chs "i", 1,
        true, chs "top.u_b.i"⟩, ⟨chs "o", 1, true, chs "top.u_b.o"⟩]
    tree := [.inst false (chs "top") (chs "top") [.port ⟨100, some 0, .input, [⟨0, 0, true⟩]⟩, .port ⟨101, some 1,
        .output, [⟨0, 0, false⟩]⟩, .inst false (chs "passthrough") (chs "top.u_a") [.port ⟨103, some 3, .input,
        [⟨0, 0, true⟩]⟩, .port ⟨104, some 4, .output, [⟨0, 0, false⟩]⟩, blk 0]
        [⟨.port 103 (some 3), some (.lsp 1 ⟨some 0, 0, 0⟩ []), false, true⟩,
         ⟨.port 104 (some 4), some (.lsp 1 ⟨some 2, 0, 0⟩ []), true, true⟩],
             .inst false (chs "passthrough") (chs "top.u_b") [.port ⟨105, some 5, .input, [⟨0, 0, true⟩]⟩,
             .port ⟨106, some 6, .output, [⟨0, 0, false⟩]⟩, blk 1]
        [⟨.port 105 (some 5), some (.lsp 1 ⟨some 2, 0, 0⟩ []), false, true⟩,
         ⟨.port 106 (some 6), some (.lsp 1 ⟨some 1, 0, 0⟩ []), true, true⟩]]
        []]
    blocks := [cont (.lsp 1 ⟨some 4, 0, 0⟩ []) (.lsp 1 ⟨some 3, 0, 0⟩ []),
      cont (.lsp 1 ⟨some 6, 0, 0⟩ []) (.lsp 1 ⟨some 5, 0, 0⟩ [])] }

theorem blackBoxingByDefinitionNameMatches_ok : meets blackBoxingByDefinitionNameMatches [
    .path (chs "top.u_a.i") (chs "top.u_a.o") false, .path (chs "top.u_b.i") (chs "top.u_b.o") false,
    .path (chs "top.a") (chs "top.c") false] = true := by
  decide +kernel

/-- Multiple black-box names can be supplied. tests/unit/BlackBoxTests.cpp:82-113. -/
def multipleBlackBoxNamesCanBe : Design' :=
  { opts := { boxes := [chs "foo", chs "baz"] }
    sigs := [⟨chs "a", 1, true, chs "top.a"⟩, ⟨chs "c", 1, true, chs "top.c"⟩, ⟨chs "w1", 1, false, chs "top.w1"⟩,
        ⟨chs "w2", 1, false, chs "top.w2"⟩, ⟨chs "i", 1, true, chs "top.u_foo.i"⟩, ⟨chs "o", 1, true,
        chs "top.u_foo.o"⟩, ⟨chs "i", 1, true, chs "top.u_bar.i"⟩, ⟨chs "o", 1, true, chs "top.u_bar.o"⟩, ⟨chs "i",
        1, true, chs "top.u_baz.i"⟩, ⟨chs "o", 1, true, chs "top.u_baz.o"⟩]
    tree := [.inst false (chs "top") (chs "top") [.port ⟨100, some 0, .input, [⟨0, 0, true⟩]⟩, .port ⟨101, some 1,
        .output, [⟨0, 0, false⟩]⟩, .inst false (chs "foo") (chs "top.u_foo") [.port ⟨104, some 4, .input, [⟨0, 0,
        true⟩]⟩, .port ⟨105, some 5, .output, [⟨0, 0, false⟩]⟩, blk 0]
        [⟨.port 104 (some 4), some (.lsp 1 ⟨some 0, 0, 0⟩ []), false, true⟩,
         ⟨.port 105 (some 5), some (.lsp 1 ⟨some 2, 0, 0⟩ []), true, true⟩],
             .inst false (chs "bar") (chs "top.u_bar") [.port ⟨106, some 6, .input, [⟨0, 0, true⟩]⟩, .port ⟨107,
             some 7, .output, [⟨0, 0, false⟩]⟩, blk 1]
        [⟨.port 106 (some 6), some (.lsp 1 ⟨some 2, 0, 0⟩ []), false, true⟩,
         ⟨.port 107 (some 7), some (.lsp 1 ⟨some 3, 0, 0⟩ []), true, true⟩],
             .inst false (chs "baz") (chs "top.u_baz") [.port ⟨108, some 8, .input, [⟨0, 0, true⟩]⟩, .port ⟨109,
             some 9, .output, [⟨0, 0, false⟩]⟩, blk 2]
        [⟨.port 108 (some 8), some (.lsp 1 ⟨some 3, 0, 0⟩ []), false, true⟩,
         ⟨.port 109 (some 9), some (.lsp 1 ⟨some 1, 0, 0⟩ []), true, true⟩]]
        []]
    blocks := [cont (.lsp 1 ⟨some 5, 0, 0⟩ []) (.lsp 1 ⟨some 4, 0, 0⟩ []),
      cont (.lsp 1 ⟨some 7, 0, 0⟩ []) (.lsp 1 ⟨some 6, 0, 0⟩ []),
      cont (.lsp 1 ⟨some 9, 0, 0⟩ []) (.lsp 1 ⟨some 8, 0, 0⟩ [])] }

theorem multipleBlackBoxNamesCanBe_ok : meets multipleBlackBoxNamesCanBe [
    .path (chs "top.u_foo.i") (chs "top.u_foo.o") false, .path (chs "top.u_bar.i") (chs "top.u_bar.o") true,
    .path (chs "top.u_baz.i") (chs "top.u_baz.o") false, .path (chs "top.a") (chs "top.c") false] = true := by
  decide +kernel

/-- Black box with multi-bit ports preserves boundary connectivity. tests/unit/BlackBoxTests.cpp:115-136. -/
def blackBoxWithMultiBitPorts : Design' :=
  { opts := { boxes := [chs "bb"] }
    sigs := [⟨chs "a", 4, true, chs "top.a"⟩, ⟨chs "c", 4, true, chs "top.c"⟩, ⟨chs "i", 4, true,
        chs "top.u_bb.i"⟩, ⟨chs "o", 4, true, chs "top.u_bb.o"⟩]
    tree := [.inst false (chs "top") (chs "top") [.port ⟨100, some 0, .input, [⟨0, 3, true⟩]⟩, .port ⟨101, some 1,
        .output, [⟨0, 3, false⟩]⟩, .inst false (chs "bb") (chs "top.u_bb") [.port ⟨102, some 2, .input, [⟨0, 3,
        true⟩]⟩, .port ⟨103, some 3, .output, [⟨0, 3, false⟩]⟩, blk 0]
        [⟨.port 102 (some 2), some (.lsp 4 ⟨some 0, 0, 3⟩ []), false, true⟩,
         ⟨.port 103 (some 3), some (.lsp 4 ⟨some 1, 0, 3⟩ []), true, true⟩]]
        []]
    blocks := [cont (.lsp 4 ⟨some 3, 0, 3⟩ []) (.other 4 none [⟨some 2, 0, 3⟩])] }

theorem blackBoxWithMultiBitPorts_ok : meets blackBoxWithMultiBitPorts [
    .path (chs "top.a") (chs "top.u_bb.i") true, .path (chs "top.u_bb.o") (chs "top.c") true,
    .path (chs "top.a") (chs "top.c") false] = true := by
  decide +kernel

/-- Empty black-box list leaves the netlist unchanged. tests/unit/BlackBoxTests.cpp:138-154. -/
def emptyBlackBoxListLeavesThe : Design' :=
  { sigs := [⟨chs "a", 1, true, chs "top.a"⟩, ⟨chs "b", 1, true, chs "top.b"⟩, ⟨chs "c", 1, true, chs "top.c"⟩,
      ⟨chs "x", 1, true, chs "top.u_mux.x"⟩, ⟨chs "y", 1, true, chs "top.u_mux.y"⟩, ⟨chs "z", 1, true,
      chs "top.u_mux.z"⟩]
    tree := [.inst false (chs "top") (chs "top") [.port ⟨100, some 0, .input, [⟨0, 0, true⟩]⟩, .port ⟨101, some 1,
        .input, [⟨0, 0, true⟩]⟩, .port ⟨102, some 2, .output, [⟨0, 0, false⟩]⟩,
        .inst false (chs "foo") (chs "top.u_mux") [.port ⟨103, some 3, .input, [⟨0, 0, true⟩]⟩, .port ⟨104, some 4,
        .input, [⟨0, 0, true⟩]⟩, .port ⟨105, some 5, .output, [⟨0, 0, false⟩]⟩, blk 0]
        [⟨.port 103 (some 3), some (.lsp 1 ⟨some 0, 0, 0⟩ []), false, true⟩,
         ⟨.port 104 (some 4), some (.lsp 1 ⟨some 1, 0, 0⟩ []), false, true⟩,
         ⟨.port 105 (some 5), some (.lsp 1 ⟨some 2, 0, 0⟩ []), true, true⟩]]
        []]
    blocks := [cont (.lsp 1 ⟨some 5, 0, 0⟩ []) (.other 1 none [⟨some 3, 0, 0⟩, ⟨some 4, 0, 0⟩])] }

theorem emptyBlackBoxListLeavesThe_ok : meets emptyBlackBoxListLeavesThe [
    .path (chs "top.a") (chs "top.c") true, .path (chs "top.b") (chs "top.c") true] = true := by
  decide +kernel

/-- Unmatched black-box name does not affect the netlist. tests/unit/BlackBoxTests.cpp:156-172. -/
def unmatchedBlackBoxNameDoesNot : Design' :=
  { opts := { boxes := [chs "does_not_exist"] }
    sigs := [⟨chs "a", 1, true, chs "top.a"⟩, ⟨chs "c", 1, true, chs "top.c"⟩, ⟨chs "x", 1, true,
        chs "top.u_foo.x"⟩, ⟨chs "z", 1, true, chs "top.u_foo.z"⟩]
    tree := [.inst false (chs "top") (chs "top") [.port ⟨100, some 0, .input, [⟨0, 0, true⟩]⟩, .port ⟨101, some 1,
        .output, [⟨0, 0, false⟩]⟩, .inst false (chs "foo") (chs "top.u_foo") [.port ⟨102, some 2, .input, [⟨0, 0,
        true⟩]⟩, .port ⟨103, some 3, .output, [⟨0, 0, false⟩]⟩, blk 0]
        [⟨.port 102 (some 2), some (.lsp 1 ⟨some 0, 0, 0⟩ []), false, true⟩,
         ⟨.port 103 (some 3), some (.lsp 1 ⟨some 1, 0, 0⟩ []), true, true⟩]]
        []]
    blocks := [cont (.lsp 1 ⟨some 3, 0, 0⟩ []) (.lsp 1 ⟨some 2, 0, 0⟩ [])] }

theorem unmatchedBlackBoxNameDoesNot_ok : meets unmatchedBlackBoxNameDoesNot [
    .path (chs "top.a") (chs "top.c") true] = true := by
  decide +kernel

/-- Glob '*' on definition name matches a prefix family. tests/unit/BlackBoxTests.cpp:174-204. -/
def globOnDefinitionNameMatchesA : Design' :=
  { opts := { boxes := [chs "foo_*"] }
    sigs := [⟨chs "a", 1, true, chs "top.a"⟩, ⟨chs "c", 1, true, chs "top.c"⟩, ⟨chs "w1", 1, false, chs "top.w1"⟩,
        ⟨chs "w2", 1, false, chs "top.w2"⟩, ⟨chs "i", 1, true, chs "top.u_a.i"⟩, ⟨chs "o", 1, true,
        chs "top.u_a.o"⟩, ⟨chs "i", 1, true, chs "top.u_b.i"⟩, ⟨chs "o", 1, true, chs "top.u_b.o"⟩, ⟨chs "i", 1,
        true, chs "top.u_c.i"⟩, ⟨chs "o", 1, true, chs "top.u_c.o"⟩]
    tree := [.inst false (chs "top") (chs "top") [.port ⟨100, some 0, .input, [⟨0, 0, true⟩]⟩, .port ⟨101, some 1,
        .output, [⟨0, 0, false⟩]⟩, .inst false (chs "foo_a") (chs "top.u_a") [.port ⟨104, some 4, .input, [⟨0, 0,
        true⟩]⟩, .port ⟨105, some 5, .output, [⟨0, 0, false⟩]⟩, blk 0]
        [⟨.port 104 (some 4), some (.lsp 1 ⟨some 0, 0, 0⟩ []), false, true⟩,
         ⟨.port 105 (some 5), some (.lsp 1 ⟨some 2, 0, 0⟩ []), true, true⟩],
             .inst false (chs "foo_b") (chs "top.u_b") [.port ⟨106, some 6, .input, [⟨0, 0, true⟩]⟩, .port ⟨107,
             some 7, .output, [⟨0, 0, false⟩]⟩, blk 1]
        [⟨.port 106 (some 6), some (.lsp 1 ⟨some 2, 0, 0⟩ []), false, true⟩,
         ⟨.port 107 (some 7), some (.lsp 1 ⟨some 3, 0, 0⟩ []), true, true⟩],
             .inst false (chs "bar") (chs "top.u_c") [.port ⟨108, some 8, .input, [⟨0, 0, true⟩]⟩, .port ⟨109,
             some 9, .output, [⟨0, 0, false⟩]⟩, blk 2]
        [⟨.port 108 (some 8), some (.lsp 1 ⟨some 3, 0, 0⟩ []), false, true⟩,
         ⟨.port 109 (some 9), some (.lsp 1 ⟨some 1, 0, 0⟩ []), true, true⟩]]
        []]
    blocks := [cont (.lsp 1 ⟨some 5, 0, 0⟩ []) (.lsp 1 ⟨some 4, 0, 0⟩ []),
      cont (.lsp 1 ⟨some 7, 0, 0⟩ []) (.lsp 1 ⟨some 6, 0, 0⟩ []),
      cont (.lsp 1 ⟨some 9, 0, 0⟩ []) (.lsp 1 ⟨some 8, 0, 0⟩ [])] }

theorem globOnDefinitionNameMatchesA_ok : meets globOnDefinitionNameMatchesA [
    .path (chs "top.u_a.i") (chs "top.u_a.o") false, .path (chs "top.u_b.i") (chs "top.u_b.o") false,
    .path (chs "top.u_c.i") (chs "top.u_c.o") true, .path (chs "top.a") (chs "top.c") false] = true := by
  decide +kernel

/-- Glob '*' on hierarchical path matches sibling instances. tests/unit/BlackBoxTests.cpp:206-229. -/
def globOnHierarchicalPathMatchesSibling : Design' :=
  { opts := { boxes := [chs "top.u_*"] }
    sigs := [⟨chs "a", 1, true, chs "top.a"⟩, ⟨chs "c", 1, true, chs "top.c"⟩, ⟨chs "w1", 1, false, chs "top.w1"⟩,
        ⟨chs "w2", 1, false, chs "top.w2"⟩, ⟨chs "i", 1, true, chs "top.u_a.i"⟩, ⟨chs "o", 1, true,
        chs "top.u_a.o"⟩, ⟨chs "i", 1, true, chs "top.u_b.i"⟩, ⟨chs "o", 1, true, chs "top.u_b.o"⟩, ⟨chs "i", 1,
        true, chs "top.keep.i"⟩, ⟨chs "o", 1, true, chs "top.keep.o"⟩]
    tree := [.inst false (chs "top") (chs "top") [.port ⟨100, some 0, .input, [⟨0, 0, true⟩]⟩, .port ⟨101, some 1,
        .output, [⟨0, 0, false⟩]⟩, .inst false (chs "passthrough") (chs "top.u_a") [.port ⟨104, some 4, .input,
        [⟨0, 0, true⟩]⟩, .port ⟨105, some 5, .output, [⟨0, 0, false⟩]⟩, blk 0]
        [⟨.port 104 (some 4), some (.lsp 1 ⟨some 0, 0, 0⟩ []), false, true⟩,
         ⟨.port 105 (some 5), some (.lsp 1 ⟨some 2, 0, 0⟩ []), true, true⟩],
             .inst false (chs "passthrough") (chs "top.u_b") [.port ⟨106, some 6, .input, [⟨0, 0, true⟩]⟩,
             .port ⟨107, some 7, .output, [⟨0, 0, false⟩]⟩, blk 1]
        [⟨.port 106 (some 6), some (.lsp 1 ⟨some 2, 0, 0⟩ []), false, true⟩,
         ⟨.port 107 (some 7), some (.lsp 1 ⟨some 3, 0, 0⟩ []), true, true⟩],
             .inst false (chs "passthrough") (chs "top.keep") [.port ⟨108, some 8, .input, [⟨0, 0, true⟩]⟩,
             .port ⟨109, some 9, .output, [⟨0, 0, false⟩]⟩, blk 2]
        [⟨.port 108 (some 8), some (.lsp 1 ⟨some 3, 0, 0⟩ []), false, true⟩,
         ⟨.port 109 (some 9), some (.lsp 1 ⟨some 1, 0, 0⟩ []), true, true⟩]]
        []]
    blocks := [cont (.lsp 1 ⟨some 5, 0, 0⟩ []) (.lsp 1 ⟨some 4, 0, 0⟩ []),
      cont (.lsp 1 ⟨some 7, 0, 0⟩ []) (.lsp 1 ⟨some 6, 0, 0⟩ []),
      cont (.lsp 1 ⟨some 9, 0, 0⟩ []) (.lsp 1 ⟨some 8, 0, 0⟩ [])] }

theorem globOnHierarchicalPathMatchesSibling_ok : meets globOnHierarchicalPathMatchesSibling [
    .path (chs "top.u_a.i") (chs "top.u_a.o") false, .path (chs "top.u_b.i") (chs "top.u_b.o") false,
    .path (chs "top.keep.i") (chs "top.keep.o") true, .path (chs "top.a") (chs "top.c") false] = true := by
  decide +kernel

/-- Glob '?' matches exactly one character. tests/unit/BlackBoxTests.cpp:231-252. -/
def globMatchesExactlyOneCharacter : Design' :=
  { opts := { boxes := [chs "top.u_?"] }
    sigs := [⟨chs "a", 1, true, chs "top.a"⟩, ⟨chs "c", 1, true, chs "top.c"⟩, ⟨chs "w1", 1, false, chs "top.w1"⟩,
        ⟨chs "w2", 1, false, chs "top.w2"⟩, ⟨chs "i", 1, true, chs "top.u_a.i"⟩, ⟨chs "o", 1, true,
        chs "top.u_a.o"⟩, ⟨chs "i", 1, true, chs "top.u_bb.i"⟩, ⟨chs "o", 1, true, chs "top.u_bb.o"⟩, ⟨chs "i", 1,
        true, chs "top.u_c.i"⟩, ⟨chs "o", 1, true, chs "top.u_c.o"⟩]
    tree := [.inst false (chs "top") (chs "top") [.port ⟨100, some 0, .input, [⟨0, 0, true⟩]⟩, .port ⟨101, some 1,
        .output, [⟨0, 0, false⟩]⟩, .inst false (chs "passthrough") (chs "top.u_a") [.port ⟨104, some 4, .input,
        [⟨0, 0, true⟩]⟩, .port ⟨105, some 5, .output, [⟨0, 0, false⟩]⟩, blk 0]
        [⟨.port 104 (some 4), some (.lsp 1 ⟨some 0, 0, 0⟩ []), false, true⟩,
         ⟨.port 105 (some 5), some (.lsp 1 ⟨some 2, 0, 0⟩ []), true, true⟩],
             .inst false (chs "passthrough") (chs "top.u_bb") [.port ⟨106, some 6, .input, [⟨0, 0, true⟩]⟩,
             .port ⟨107, some 7, .output, [⟨0, 0, false⟩]⟩, blk 1]
        [⟨.port 106 (some 6), some (.lsp 1 ⟨some 2, 0, 0⟩ []), false, true⟩,
         ⟨.port 107 (some 7), some (.lsp 1 ⟨some 3, 0, 0⟩ []), true, true⟩],
             .inst false (chs "passthrough") (chs "top.u_c") [.port ⟨108, some 8, .input, [⟨0, 0, true⟩]⟩,
             .port ⟨109, some 9, .output, [⟨0, 0, false⟩]⟩, blk 2]
        [⟨.port 108 (some 8), some (.lsp 1 ⟨some 3, 0, 0⟩ []), false, true⟩,
         ⟨.port 109 (some 9), some (.lsp 1 ⟨some 1, 0, 0⟩ []), true, true⟩]]
        []]
    blocks := [cont (.lsp 1 ⟨some 5, 0, 0⟩ []) (.lsp 1 ⟨some 4, 0, 0⟩ []),
      cont (.lsp 1 ⟨some 7, 0, 0⟩ []) (.lsp 1 ⟨some 6, 0, 0⟩ []),
      cont (.lsp 1 ⟨some 9, 0, 0⟩ []) (.lsp 1 ⟨some 8, 0, 0⟩ [])] }

theorem globMatchesExactlyOneCharacter_ok : meets globMatchesExactlyOneCharacter [
    .path (chs "top.u_a.i") (chs "top.u_a.o") false, .path (chs "top.u_bb.i") (chs "top.u_bb.o") true,
    .path (chs "top.u_c.i") (chs "top.u_c.o") false] = true := by
  decide +kernel

/-- Glob pattern that matches nothing leaves the netlist unchanged. tests/unit/BlackBoxTests.cpp:254-270. -/
def globPatternThatMatchesNothingLeaves : Design' :=
  { opts := { boxes := [chs "nope_*", chs "??_does_not_match"] }
    sigs := [⟨chs "a", 1, true, chs "top.a"⟩, ⟨chs "c", 1, true, chs "top.c"⟩, ⟨chs "x", 1, true,
        chs "top.u_foo.x"⟩, ⟨chs "z", 1, true, chs "top.u_foo.z"⟩]
    tree := [.inst false (chs "top") (chs "top") [.port ⟨100, some 0, .input, [⟨0, 0, true⟩]⟩, .port ⟨101, some 1,
        .output, [⟨0, 0, false⟩]⟩, .inst false (chs "foo") (chs "top.u_foo") [.port ⟨102, some 2, .input, [⟨0, 0,
        true⟩]⟩, .port ⟨103, some 3, .output, [⟨0, 0, false⟩]⟩, blk 0]
        [⟨.port 102 (some 2), some (.lsp 1 ⟨some 0, 0, 0⟩ []), false, true⟩,
         ⟨.port 103 (some 3), some (.lsp 1 ⟨some 1, 0, 0⟩ []), true, true⟩]]
        []]
    blocks := [cont (.lsp 1 ⟨some 3, 0, 0⟩ []) (.lsp 1 ⟨some 2, 0, 0⟩ [])] }

theorem globPatternThatMatchesNothingLeaves_ok : meets globPatternThatMatchesNothingLeaves [
    .path (chs "top.a") (chs "top.c") true] = true := by
  decide +kernel

/-- Glob '*' is single-segment in hierarchical paths. tests/unit/BlackBoxTests.cpp:272-296. -/
def globIsSingleSegmentInHierarchical : Design' :=
  { opts := { boxes := [chs "top.*"] }
    sigs := [⟨chs "a", 1, true, chs "top.a"⟩, ⟨chs "c", 1, true, chs "top.c"⟩, ⟨chs "i", 1, true,
        chs "top.u_mid.i"⟩, ⟨chs "o", 1, true, chs "top.u_mid.o"⟩, ⟨chs "i", 1, true, chs "top.u_mid.u_leaf.i"⟩,
        ⟨chs "o", 1, true, chs "top.u_mid.u_leaf.o"⟩]
    tree := [.inst false (chs "top") (chs "top") [.port ⟨100, some 0, .input, [⟨0, 0, true⟩]⟩, .port ⟨101, some 1,
        .output, [⟨0, 0, false⟩]⟩, .inst false (chs "mid") (chs "top.u_mid") [.port ⟨102, some 2, .input, [⟨0, 0,
        true⟩]⟩, .port ⟨103, some 3, .output, [⟨0, 0, false⟩]⟩,
        .inst false (chs "leaf") (chs "top.u_mid.u_leaf") [.port ⟨104, some 4, .input, [⟨0, 0, true⟩]⟩, .port ⟨105,
        some 5, .output, [⟨0, 0, false⟩]⟩, blk 0]
        [⟨.port 104 (some 4), some (.lsp 1 ⟨some 2, 0, 0⟩ []), false, true⟩,
         ⟨.port 105 (some 5), some (.lsp 1 ⟨some 3, 0, 0⟩ []), true, true⟩]]
        [⟨.port 102 (some 2), some (.lsp 1 ⟨some 0, 0, 0⟩ []), false, true⟩,
         ⟨.port 103 (some 3), some (.lsp 1 ⟨some 1, 0, 0⟩ []), true, true⟩]]
        []]
    blocks := [cont (.lsp 1 ⟨some 5, 0, 0⟩ []) (.lsp 1 ⟨some 4, 0, 0⟩ [])] }

theorem globIsSingleSegmentInHierarchical_ok : meets globIsSingleSegmentInHierarchical [
    .path (chs "top.a") (chs "top.c") false] = true := by
  decide +kernel

/-- Glob '**' crosses '.' in hierarchical paths. tests/unit/BlackBoxTests.cpp:298-320. -/
def globCrossesInHierarchicalPaths : Design' :=
  { opts := { boxes := [chs "top.**.u_leaf"] }
    sigs := [⟨chs "a", 1, true, chs "top.a"⟩, ⟨chs "c", 1, true, chs "top.c"⟩, ⟨chs "i", 1, true,
        chs "top.u_mid.i"⟩, ⟨chs "o", 1, true, chs "top.u_mid.o"⟩, ⟨chs "i", 1, true, chs "top.u_mid.u_leaf.i"⟩,
        ⟨chs "o", 1, true, chs "top.u_mid.u_leaf.o"⟩]
    tree := [.inst false (chs "top") (chs "top") [.port ⟨100, some 0, .input, [⟨0, 0, true⟩]⟩, .port ⟨101, some 1,
        .output, [⟨0, 0, false⟩]⟩, .inst false (chs "mid") (chs "top.u_mid") [.port ⟨102, some 2, .input, [⟨0, 0,
        true⟩]⟩, .port ⟨103, some 3, .output, [⟨0, 0, false⟩]⟩,
        .inst false (chs "leaf") (chs "top.u_mid.u_leaf") [.port ⟨104, some 4, .input, [⟨0, 0, true⟩]⟩, .port ⟨105,
        some 5, .output, [⟨0, 0, false⟩]⟩, blk 0]
        [⟨.port 104 (some 4), some (.lsp 1 ⟨some 2, 0, 0⟩ []), false, true⟩,
         ⟨.port 105 (some 5), some (.lsp 1 ⟨some 3, 0, 0⟩ []), true, true⟩]]
        [⟨.port 102 (some 2), some (.lsp 1 ⟨some 0, 0, 0⟩ []), false, true⟩,
         ⟨.port 103 (some 3), some (.lsp 1 ⟨some 1, 0, 0⟩ []), true, true⟩]]
        []]
    blocks := [cont (.lsp 1 ⟨some 5, 0, 0⟩ []) (.lsp 1 ⟨some 4, 0, 0⟩ [])] }

theorem globCrossesInHierarchicalPaths_ok : meets globCrossesInHierarchicalPaths [
    .path (chs "top.u_mid.u_leaf.i") (chs "top.u_mid.u_leaf.o") false,
        .path (chs "top.a") (chs "top.c") false] = true := by
  decide +kernel

/-- Coverage: boundary ports and outside nodes. tests/unit/BlackBoxTests.cpp:322-354. -/
def coverageBoundaryPortsAndOutsideNodes : Design' :=
  { opts := { boxes := [chs "foo"] }
    sigs := [⟨chs "a", 1, true, chs "top.a"⟩, ⟨chs "b", 1, true, chs "top.b"⟩, ⟨chs "c", 1, true, chs "top.c"⟩,
        ⟨chs "x", 1, true, chs "top.u_mux.x"⟩, ⟨chs "y", 1, true, chs "top.u_mux.y"⟩, ⟨chs "z", 1, true,
        chs "top.u_mux.z"⟩]
    tree := [.inst false (chs "top") (chs "top") [.port ⟨100, some 0, .input, [⟨0, 0, true⟩]⟩, .port ⟨101, some 1,
        .input, [⟨0, 0, true⟩]⟩, .port ⟨102, some 2, .output, [⟨0, 0, false⟩]⟩,
        .inst false (chs "foo") (chs "top.u_mux") [.port ⟨103, some 3, .input, [⟨0, 0, true⟩]⟩, .port ⟨104, some 4,
        .input, [⟨0, 0, true⟩]⟩, .port ⟨105, some 5, .output, [⟨0, 0, false⟩]⟩, blk 0]
        [⟨.port 103 (some 3), some (.lsp 1 ⟨some 0, 0, 0⟩ []), false, true⟩,
         ⟨.port 104 (some 4), some (.lsp 1 ⟨some 1, 0, 0⟩ []), false, true⟩,
         ⟨.port 105 (some 5), some (.lsp 1 ⟨some 2, 0, 0⟩ []), true, true⟩]]
        []]
    blocks := [cont (.lsp 1 ⟨some 5, 0, 0⟩ []) (.other 1 none [⟨some 3, 0, 0⟩, ⟨some 4, 0, 0⟩])] }

theorem coverageBoundaryPortsAndOutsideNodes_ok : meets coverageBoundaryPortsAndOutsideNodes [
    .cover (chs "top.u_mux.x") .boundary, .cover (chs "top.u_mux.y") .boundary,
    .cover (chs "top.u_mux.z") .boundary, .cover (chs "top.a") .outside, .cover (chs "top.c") .outside,
    .boxes [chs "top.u_mux"]] = true := by
  decide +kernel

/-- Coverage: definition-name pattern records one path per instance. tests/unit/BlackBoxTests.cpp:356-382. -/
def coverageDefinitionNamePatternRecordsOne : Design' :=
  { opts := { boxes := [chs "passthrough"] }
    sigs := [⟨chs "a", 1, true, chs "top.a"⟩, ⟨chs "c", 1, true, chs "top.c"⟩, ⟨chs "mid", 1, false,
        chs "top.mid"⟩, ⟨chs "i", 1, true, chs "top.u_a.i"⟩, ⟨chs "o", 1, true, chs "top.u_a.o"⟩, ⟨chs "i", 1,
        true, chs "top.u_b.i"⟩, ⟨chs "o", 1, true, chs "top.u_b.o"⟩]
    tree := [.inst false (chs "top") (chs "top") [.port ⟨100, some 0, .input, [⟨0, 0, true⟩]⟩, .port ⟨101, some 1,
        .output, [⟨0, 0, false⟩]⟩, .inst false (chs "passthrough") (chs "top.u_a") [.port ⟨103, some 3, .input,
        [⟨0, 0, true⟩]⟩, .port ⟨104, some 4, .output, [⟨0, 0, false⟩]⟩, blk 0]
        [⟨.port 103 (some 3), some (.lsp 1 ⟨some 0, 0, 0⟩ []), false, true⟩,
         ⟨.port 104 (some 4), some (.lsp 1 ⟨some 2, 0, 0⟩ []), true, true⟩],
             .inst false (chs "passthrough") (chs "top.u_b") [.port ⟨105, some 5, .input, [⟨0, 0, true⟩]⟩,
             .port ⟨106, some 6, .output, [⟨0, 0, false⟩]⟩, blk 1]
        [⟨.port 105 (some 5), some (.lsp 1 ⟨some 2, 0, 0⟩ []), false, true⟩,
         ⟨.port 106 (some 6), some (.lsp 1 ⟨some 1, 0, 0⟩ []), true, true⟩]]
        []]
    blocks := [cont (.lsp 1 ⟨some 4, 0, 0⟩ []) (.lsp 1 ⟨some 3, 0, 0⟩ []),
      cont (.lsp 1 ⟨some 6, 0, 0⟩ []) (.lsp 1 ⟨some 5, 0, 0⟩ [])] }

theorem coverageDefinitionNamePatternRecordsOne_ok : meets coverageDefinitionNamePatternRecordsOne [
    .cover (chs "top.u_a.i") .boundary, .cover (chs "top.u_b.o") .boundary, .boxes [chs "top.u_a",
        chs "top.u_b"]] = true := by
  decide +kernel

/-- Coverage: prefix matching is segment-aware. tests/unit/BlackBoxTests.cpp:384-407. -/
def coveragePrefixMatchingIsSegmentAware : Design' :=
  { opts := { boxes := [chs "top.u_a"] }
    sigs := [⟨chs "a", 1, true, chs "top.a"⟩, ⟨chs "c", 1, true, chs "top.c"⟩, ⟨chs "mid", 1, false,
        chs "top.mid"⟩, ⟨chs "i", 1, true, chs "top.u_a.i"⟩, ⟨chs "o", 1, true, chs "top.u_a.o"⟩, ⟨chs "i", 1,
        true, chs "top.u_ab.i"⟩, ⟨chs "o", 1, true, chs "top.u_ab.o"⟩]
    tree := [.inst false (chs "top") (chs "top") [.port ⟨100, some 0, .input, [⟨0, 0, true⟩]⟩, .port ⟨101, some 1,
        .output, [⟨0, 0, false⟩]⟩, .inst false (chs "passthrough") (chs "top.u_a") [.port ⟨103, some 3, .input,
        [⟨0, 0, true⟩]⟩, .port ⟨104, some 4, .output, [⟨0, 0, false⟩]⟩, blk 0]
        [⟨.port 103 (some 3), some (.lsp 1 ⟨some 0, 0, 0⟩ []), false, true⟩,
         ⟨.port 104 (some 4), some (.lsp 1 ⟨some 2, 0, 0⟩ []), true, true⟩],
             .inst false (chs "passthrough") (chs "top.u_ab") [.port ⟨105, some 5, .input, [⟨0, 0, true⟩]⟩,
             .port ⟨106, some 6, .output, [⟨0, 0, false⟩]⟩, blk 1]
        [⟨.port 105 (some 5), some (.lsp 1 ⟨some 2, 0, 0⟩ []), false, true⟩,
         ⟨.port 106 (some 6), some (.lsp 1 ⟨some 1, 0, 0⟩ []), true, true⟩]]
        []]
    blocks := [cont (.lsp 1 ⟨some 4, 0, 0⟩ []) (.lsp 1 ⟨some 3, 0, 0⟩ []),
      cont (.lsp 1 ⟨some 6, 0, 0⟩ []) (.lsp 1 ⟨some 5, 0, 0⟩ [])] }

theorem coveragePrefixMatchingIsSegmentAware_ok : meets coveragePrefixMatchingIsSegmentAware [
    .cover (chs "top.u_a.i") .boundary, .cover (chs "top.u_ab.i") .outside,
        .cover (chs "top.u_ab.o") .outside] = true := by
  decide +kernel

/-- Coverage: nodes without hierarchical paths are outside. tests/unit/BlackBoxTests.cpp:409-429. -/
def coverageNodesWithoutHierarchicalPathsAre : Design' :=
  { opts := { boxes := [chs "foo"] }
    sigs := [⟨chs "a", 1, true, chs "top.a"⟩, ⟨chs "c", 1, true, chs "top.c"⟩, ⟨chs "w", 1, false, chs "top.w"⟩,
        ⟨chs "x", 1, true, chs "top.u_foo.x"⟩, ⟨chs "z", 1, true, chs "top.u_foo.z"⟩]
    tree := [.inst false (chs "top") (chs "top") [.port ⟨100, some 0, .input, [⟨0, 0, true⟩]⟩, .port ⟨101, some 1,
        .output, [⟨0, 0, false⟩]⟩, blk 0, .inst false (chs "foo") (chs "top.u_foo") [.port ⟨103, some 3, .input,
        [⟨0, 0, true⟩]⟩, .port ⟨104, some 4, .output, [⟨0, 0, false⟩]⟩, blk 1]
        [⟨.port 103 (some 3), some (.lsp 1 ⟨some 2, 0, 0⟩ []), false, true⟩,
         ⟨.port 104 (some 4), some (.lsp 1 ⟨some 1, 0, 0⟩ []), true, true⟩]]
        []]
    blocks := [cont (.lsp 1 ⟨some 2, 0, 0⟩ []) (.lsp 1 ⟨some 0, 0, 0⟩ []),
      cont (.lsp 1 ⟨some 4, 0, 0⟩ []) (.lsp 1 ⟨some 3, 0, 0⟩ [])] }

theorem coverageNodesWithoutHierarchicalPathsAre_ok : meets coverageNodesWithoutHierarchicalPathsAre [
    .coverKind .assignment .outside] = true := by
  decide +kernel

/-- Coverage: contained nodes under a manually added path. tests/unit/BlackBoxTests.cpp:431-470. -/
def coverageContainedNodesUnderAManually : Design' :=
  { sigs := [⟨chs "clk", 1, true, chs "top.clk"⟩, ⟨chs "a", 1, true, chs "top.a"⟩, ⟨chs "c", 1, true, chs "top.c"⟩,
      ⟨chs "clk", 1, true, chs "top.u_mid.clk"⟩, ⟨chs "i", 1, true, chs "top.u_mid.i"⟩, ⟨chs "o", 1, true,
      chs "top.u_mid.o"⟩, ⟨chs "q", 1, false, chs "top.u_mid.q"⟩, ⟨chs "i", 1, true, chs "top.u_mid.u_leaf.i"⟩,
      ⟨chs "o", 1, true, chs "top.u_mid.u_leaf.o"⟩]
    tree := [.inst false (chs "top") (chs "top") [.port ⟨100, some 0, .input, [⟨0, 0, true⟩]⟩, .port ⟨101, some 1,
        .input, [⟨0, 0, true⟩]⟩, .port ⟨102, some 2, .output, [⟨0, 0, false⟩]⟩,
        .inst false (chs "mid") (chs "top.u_mid") [.port ⟨103, some 3, .input, [⟨0, 0, true⟩]⟩, .port ⟨104, some 4,
        .input, [⟨0, 0, true⟩]⟩, .port ⟨105, some 5, .output, [⟨0, 0, false⟩]⟩, blk 0,
        .inst false (chs "leaf") (chs "top.u_mid.u_leaf") [.port ⟨107, some 7, .input, [⟨0, 0, true⟩]⟩, .port ⟨108,
        some 8, .output, [⟨0, 0, false⟩]⟩, blk 1]
        [⟨.port 107 (some 7), some (.lsp 1 ⟨some 6, 0, 0⟩ []), false, true⟩,
         ⟨.port 108 (some 8), some (.lsp 1 ⟨some 5, 0, 0⟩ []), true, true⟩]]
        [⟨.port 103 (some 3), some (.lsp 1 ⟨some 0, 0, 0⟩ []), false, true⟩,
         ⟨.port 104 (some 4), some (.lsp 1 ⟨some 1, 0, 0⟩ []), false, true⟩,
         ⟨.port 105 (some 5), some (.lsp 1 ⟨some 2, 0, 0⟩ []), true, true⟩]]
        []]
    blocks := [.procedural .alwaysFF (.timed (.signalEvent ⟨.posEdge, some 3⟩)) (nba (.lsp 1 ⟨some 6, 0,
        0⟩ []) (.lsp 1 ⟨some 4, 0, 0⟩ [])),
      cont (.lsp 1 ⟨some 8, 0, 0⟩ []) (.lsp 1 ⟨some 7, 0, 0⟩ [])] }

theorem coverageContainedNodesUnderAManually_ok : meets coverageContainedNodesUnderAManually [
    .coverWith (chs "top.u_mid") (chs "top.u_mid.i") .boundary,
    .coverWith (chs "top.u_mid") (chs "top.u_mid.o") .boundary,
    .coverWith (chs "top.u_mid") (chs "top.u_mid.q") .contained,
    .coverWith (chs "top.u_mid") (chs "top.u_mid.u_leaf.i") .contained,
    .coverWith (chs "top.u_mid") (chs "top.a") .outside] = true := by
  decide +kernel

/-- Coverage: no black boxes means everything is outside. tests/unit/BlackBoxTests.cpp:472-484. -/
def coverageNoBlackBoxesMeansEverything : Design' :=
  { sigs := [⟨chs "a", 1, true, chs "top.a"⟩, ⟨chs "c", 1, true, chs "top.c"⟩]
    tree := [.inst false (chs "top") (chs "top") [.port ⟨100, some 0, .input, [⟨0, 0, true⟩]⟩, .port ⟨101, some 1,
        .output, [⟨0, 0, false⟩]⟩, blk 0]
        []]
    blocks := [cont (.lsp 1 ⟨some 1, 0, 0⟩ []) (.lsp 1 ⟨some 0, 0, 0⟩ [])] }

theorem coverageNoBlackBoxesMeansEverything_ok : meets coverageNoBlackBoxesMeansEverything [
    .cover (chs "top.a") .outside, .boxes []] = true := by
  decide +kernel

/-- Glob '...' is equivalent to '**' across path boundaries. tests/unit/BlackBoxTests.cpp:486-507. -/
def globIsEquivalentToAcrossPath : Design' :=
  { opts := { boxes := [chs "top....u_leaf"] }
    sigs := [⟨chs "a", 1, true, chs "top.a"⟩, ⟨chs "c", 1, true, chs "top.c"⟩, ⟨chs "i", 1, true,
        chs "top.u_mid.i"⟩, ⟨chs "o", 1, true, chs "top.u_mid.o"⟩, ⟨chs "i", 1, true, chs "top.u_mid.u_leaf.i"⟩,
        ⟨chs "o", 1, true, chs "top.u_mid.u_leaf.o"⟩]
    tree := [.inst false (chs "top") (chs "top") [.port ⟨100, some 0, .input, [⟨0, 0, true⟩]⟩, .port ⟨101, some 1,
        .output, [⟨0, 0, false⟩]⟩, .inst false (chs "mid") (chs "top.u_mid") [.port ⟨102, some 2, .input, [⟨0, 0,
        true⟩]⟩, .port ⟨103, some 3, .output, [⟨0, 0, false⟩]⟩,
        .inst false (chs "leaf") (chs "top.u_mid.u_leaf") [.port ⟨104, some 4, .input, [⟨0, 0, true⟩]⟩, .port ⟨105,
        some 5, .output, [⟨0, 0, false⟩]⟩, blk 0]
        [⟨.port 104 (some 4), some (.lsp 1 ⟨some 2, 0, 0⟩ []), false, true⟩,
         ⟨.port 105 (some 5), some (.lsp 1 ⟨some 3, 0, 0⟩ []), true, true⟩]]
        [⟨.port 102 (some 2), some (.lsp 1 ⟨some 0, 0, 0⟩ []), false, true⟩,
         ⟨.port 103 (some 3), some (.lsp 1 ⟨some 1, 0, 0⟩ []), true, true⟩]]
        []]
    blocks := [cont (.lsp 1 ⟨some 5, 0, 0⟩ []) (.lsp 1 ⟨some 4, 0, 0⟩ [])] }

theorem globIsEquivalentToAcrossPath_ok : meets globIsEquivalentToAcrossPath [
    .path (chs "top.u_mid.u_leaf.i") (chs "top.u_mid.u_leaf.o") false,
        .path (chs "top.a") (chs "top.c") false] = true := by
  decide +kernel

/-- Parallel: continuous assignments. tests/unit/ParallelTests.cpp:15-27. -/
def parallelContinuousAssignments : Design' :=
  { sigs := [⟨chs "a", 8, true, chs "m.a"⟩, ⟨chs "b", 8, true, chs "m.b"⟩, ⟨chs "x", 8, true, chs "m.x"⟩, ⟨chs "y",
      8, true, chs "m.y"⟩]
    tree := [.inst false (chs "m") (chs "m") [.port ⟨100, some 0, .input, [⟨0, 7, true⟩]⟩, .port ⟨101, some 1,
        .input, [⟨0, 7, true⟩]⟩, .port ⟨102, some 2, .output, [⟨0, 7, false⟩]⟩, .port ⟨103, some 3, .output, [⟨0,
        7, false⟩]⟩, blk 0, blk 1]
        []]
    blocks := [cont (.lsp 8 ⟨some 2, 0, 7⟩ []) (.lsp 8 ⟨some 0, 0, 7⟩ []),
      cont (.lsp 8 ⟨some 3, 0, 7⟩ []) (.lsp 8 ⟨some 1, 0, 7⟩ [])] }

theorem parallelContinuousAssignments_ok : meets parallelContinuousAssignments [
    .path (chs "m.a") (chs "m.x") true, .path (chs "m.b") (chs "m.y") true, .path (chs "m.a") (chs "m.y") false,
    .path (chs "m.b") (chs "m.x") false] = true := by
  decide +kernel

/-- Parallel: always_comb blocking assignments. tests/unit/ParallelTests.cpp:29-43. -/
def parallelAlwaysCombBlockingAssignments : Design' :=
  { sigs := [⟨chs "a", 8, true, chs "m.a"⟩, ⟨chs "b", 8, true, chs "m.b"⟩, ⟨chs "x", 8, true, chs "m.x"⟩, ⟨chs "y",
      8, true, chs "m.y"⟩]
    tree := [.inst false (chs "m") (chs "m") [.port ⟨100, some 0, .input, [⟨0, 7, true⟩]⟩, .port ⟨101, some 1,
        .input, [⟨0, 7, true⟩]⟩, .port ⟨102, some 2, .output, [⟨0, 7, false⟩]⟩, .port ⟨103, some 3, .output, [⟨0,
        7, false⟩]⟩, blk 0]
        []]
    blocks := [.procedural .alwaysComb .other (sq [ba (.lsp 8 ⟨some 2, 0, 7⟩ []) (.lsp 8 ⟨some 0, 0, 7⟩ []),
        ba (.lsp 8 ⟨some 3, 0, 7⟩ []) (.lsp 8 ⟨some 1, 0, 7⟩ [])])] }

theorem parallelAlwaysCombBlockingAssignments_ok : meets parallelAlwaysCombBlockingAssignments [
    .path (chs "m.a") (chs "m.x") true, .path (chs "m.b") (chs "m.y") true, .path (chs "m.a") (chs "m.y") false,
    .path (chs "m.b") (chs "m.x") false] = true := by
  decide +kernel

/-- Parallel: if/else merge. tests/unit/ParallelTests.cpp:45-62. -/
def parallelIfElseMerge : Design' :=
  { sigs := [⟨chs "cond", 1, true, chs "m.cond"⟩, ⟨chs "a", 8, true, chs "m.a"⟩, ⟨chs "b", 8, true, chs "m.b"⟩,
      ⟨chs "x", 8, true, chs "m.x"⟩]
    tree := [.inst false (chs "m") (chs "m") [.port ⟨100, some 0, .input, [⟨0, 0, true⟩]⟩, .port ⟨101, some 1,
        .input, [⟨0, 7, true⟩]⟩, .port ⟨102, some 2, .input, [⟨0, 7, true⟩]⟩, .port ⟨103, some 3, .output, [⟨0, 7,
        false⟩]⟩, blk 0]
        []]
    blocks := [.procedural .alwaysComb .other (ite (.lsp 1 ⟨some 0, 0, 0⟩ []) (ba (.lsp 8 ⟨some 3, 0,
        7⟩ []) (.lsp 8 ⟨some 1, 0, 7⟩ [])) (ba (.lsp 8 ⟨some 3, 0, 7⟩ []) (.lsp 8 ⟨some 2, 0, 7⟩ [])))] }

theorem parallelIfElseMerge_ok : meets parallelIfElseMerge [
    .path (chs "m.a") (chs "m.x") true, .path (chs "m.b") (chs "m.x") true, .exactly (chs "m.x") 7 0 2] = true := by
  decide +kernel

/-- Parallel: multiple procedural blocks. tests/unit/ParallelTests.cpp:64-79. -/
def parallelMultipleProceduralBlocks : Design' :=
  { sigs := [⟨chs "a", 8, true, chs "m.a"⟩, ⟨chs "b", 8, true, chs "m.b"⟩, ⟨chs "c", 8, true, chs "m.c"⟩, ⟨chs "x",
      8, true, chs "m.x"⟩, ⟨chs "y", 8, true, chs "m.y"⟩, ⟨chs "z", 8, true, chs "m.z"⟩]
    tree := [.inst false (chs "m") (chs "m") [.port ⟨100, some 0, .input, [⟨0, 7, true⟩]⟩, .port ⟨101, some 1,
        .input, [⟨0, 7, true⟩]⟩, .port ⟨102, some 2, .input, [⟨0, 7, true⟩]⟩, .port ⟨103, some 3, .output, [⟨0, 7,
        false⟩]⟩, .port ⟨104, some 4, .output, [⟨0, 7, false⟩]⟩, .port ⟨105, some 5, .output, [⟨0, 7, false⟩]⟩,
        blk 0, blk 1, blk 2]
        []]
    blocks := [.procedural .alwaysComb .other (ba (.lsp 8 ⟨some 3, 0, 7⟩ []) (.lsp 8 ⟨some 0, 0, 7⟩ [])),
      .procedural .alwaysComb .other (ba (.lsp 8 ⟨some 4, 0, 7⟩ []) (.lsp 8 ⟨some 1, 0, 7⟩ [])),
      .procedural .alwaysComb .other (ba (.lsp 8 ⟨some 5, 0, 7⟩ []) (.lsp 8 ⟨some 2, 0, 7⟩ []))] }

theorem parallelMultipleProceduralBlocks_ok : meets parallelMultipleProceduralBlocks [
    .path (chs "m.a") (chs "m.x") true, .path (chs "m.b") (chs "m.y") true, .path (chs "m.c") (chs "m.z") true,
    .path (chs "m.a") (chs "m.y") false, .path (chs "m.b") (chs "m.z") false] = true := by
  decide +kernel

/-- Parallel: mixed procedural and continuous. tests/unit/ParallelTests.cpp:81-92. -/
def parallelMixedProceduralAndContinuous : Design' :=
  { sigs := [⟨chs "a", 8, true, chs "m.a"⟩, ⟨chs "b", 8, true, chs "m.b"⟩, ⟨chs "x", 8, true, chs "m.x"⟩, ⟨chs "y",
      8, true, chs "m.y"⟩]
    tree := [.inst false (chs "m") (chs "m") [.port ⟨100, some 0, .input, [⟨0, 7, true⟩]⟩, .port ⟨101, some 1,
        .input, [⟨0, 7, true⟩]⟩, .port ⟨102, some 2, .output, [⟨0, 7, false⟩]⟩, .port ⟨103, some 3, .output, [⟨0,
        7, false⟩]⟩, blk 0, blk 1]
        []]
    blocks := [cont (.lsp 8 ⟨some 2, 0, 7⟩ []) (.lsp 8 ⟨some 0, 0, 7⟩ []),
      .procedural .alwaysComb .other (ba (.lsp 8 ⟨some 3, 0, 7⟩ []) (.lsp 8 ⟨some 1, 0, 7⟩ []))] }

theorem parallelMixedProceduralAndContinuous_ok : meets parallelMixedProceduralAndContinuous [
    .path (chs "m.a") (chs "m.x") true, .path (chs "m.b") (chs "m.y") true,
        .path (chs "m.a") (chs "m.y") false] = true := by
  decide +kernel

/-- Parallel: always_ff non-blocking. tests/unit/ParallelTests.cpp:94-105. -/
def parallelAlwaysFfNonBlocking : Design' :=
  { sigs := [⟨chs "clk", 1, true, chs "m.clk"⟩, ⟨chs "d", 8, true, chs "m.d"⟩, ⟨chs "q", 8, true, chs "m.q"⟩]
    tree := [.inst false (chs "m") (chs "m") [.port ⟨100, some 0, .input, [⟨0, 0, true⟩]⟩, .port ⟨101, some 1,
        .input, [⟨0, 7, true⟩]⟩, .port ⟨102, some 2, .output, [⟨0, 7, false⟩]⟩, blk 0]
        []]
    blocks := [.procedural .alwaysFF (.timed (.signalEvent ⟨.posEdge, some 0⟩)) (nba (.lsp 8 ⟨some 2, 0,
        7⟩ []) (.lsp 8 ⟨some 1, 0, 7⟩ []))] }

theorem parallelAlwaysFfNonBlocking_ok : meets parallelAlwaysFfNonBlocking [
    .path (chs "m.d") (chs "m.q") true] = true := by
  decide +kernel

/-- Parallel: bit-range splitting with merge. tests/unit/ParallelTests.cpp:107-124. -/
def parallelBitRangeSplittingWithMerge : Design' :=
  { sigs := [⟨chs "cond", 1, true, chs "m.cond"⟩, ⟨chs "a", 8, true, chs "m.a"⟩, ⟨chs "b", 8, true, chs "m.b"⟩,
      ⟨chs "x", 8, true, chs "m.x"⟩]
    tree := [.inst false (chs "m") (chs "m") [.port ⟨100, some 0, .input, [⟨0, 0, true⟩]⟩, .port ⟨101, some 1,
        .input, [⟨0, 7, true⟩]⟩, .port ⟨102, some 2, .input, [⟨0, 7, true⟩]⟩, .port ⟨103, some 3, .output, [⟨0, 7,
        false⟩, ⟨4, 3, false⟩]⟩, blk 0]
        []]
    blocks := [.procedural .alwaysComb .other (ite (.lsp 1 ⟨some 0, 0, 0⟩ []) (ba (.lsp 4 ⟨some 3, 4,
        3⟩ []) (.lsp 4 ⟨some 1, 0, 3⟩ [])) (ba (.lsp 8 ⟨some 3, 0, 7⟩ []) (.lsp 8 ⟨some 2, 0, 7⟩ [])))] }

theorem parallelBitRangeSplittingWithMerge_ok : meets parallelBitRangeSplittingWithMerge [
    .exactly (chs "m.x") 7 4 2, .exactly (chs "m.x") 3 0 1] = true := by
  decide +kernel

/-- Parallel: case statement. tests/unit/ParallelTests.cpp:126-145. -/
def parallelCaseStatement : Design' :=
  { sigs := [⟨chs "sel", 2, true, chs "m.sel"⟩, ⟨chs "a", 8, true, chs "m.a"⟩, ⟨chs "b", 8, true, chs "m.b"⟩,
      ⟨chs "c", 8, true, chs "m.c"⟩, ⟨chs "x", 8, true, chs "m.x"⟩]
    tree := [.inst false (chs "m") (chs "m") [.port ⟨100, some 0, .input, [⟨0, 1, true⟩]⟩, .port ⟨101, some 1,
        .input, [⟨0, 7, true⟩]⟩, .port ⟨102, some 2, .input, [⟨0, 7, true⟩]⟩, .port ⟨103, some 3, .input, [⟨0, 7,
        true⟩]⟩, .port ⟨104, some 4, .output, [⟨0, 7, false⟩]⟩, blk 0]
        []]
    blocks := [.procedural .alwaysComb .other (.cond true {} [.lsp 2 ⟨some 0, 0, 1⟩ [], .other 32 (some [.zero,
        .zero, .zero, .zero, .zero, .zero, .zero, .zero, .zero, .zero, .zero, .zero, .zero, .zero, .zero, .zero,
        .zero, .zero, .zero, .zero, .zero, .zero, .zero, .zero, .zero, .zero, .zero, .zero, .zero, .zero, .zero,
        .zero]) [], .other 32 (some [.one, .zero, .zero, .zero, .zero, .zero, .zero, .zero, .zero, .zero, .zero,
        .zero, .zero, .zero, .zero, .zero, .zero, .zero, .zero, .zero, .zero, .zero, .zero, .zero, .zero, .zero,
        .zero, .zero, .zero, .zero, .zero, .zero]) []] (.choose true (.choose true (ba (.lsp 8 ⟨some 4, 0,
        7⟩ []) (.lsp 8 ⟨some 1, 0, 7⟩ [])) (ba (.lsp 8 ⟨some 4, 0, 7⟩ []) (.lsp 8 ⟨some 2, 0,
        7⟩ []))) (ba (.lsp 8 ⟨some 4, 0, 7⟩ []) (.lsp 8 ⟨some 3, 0, 7⟩ []))))] }

theorem parallelCaseStatement_ok : meets parallelCaseStatement [
    .path (chs "m.a") (chs "m.x") true, .path (chs "m.b") (chs "m.x") true, .path (chs "m.c") (chs "m.x") true,
    .exactly (chs "m.x") 7 0 3] = true := by
  decide +kernel

/-- Parallel: always_ff with output port hookup. tests/unit/ParallelTests.cpp:147-167. -/
def parallelAlwaysFfWithOutputPort : Design' :=
  { sigs := [⟨chs "clk", 1, true, chs "m.clk"⟩, ⟨chs "a", 8, true, chs "m.a"⟩, ⟨chs "z", 8, true, chs "m.z"⟩,
      ⟨chs "clk", 1, true, chs "m.u.clk"⟩, ⟨chs "d", 8, true, chs "m.u.d"⟩, ⟨chs "q", 8, true, chs "m.u.q"⟩]
    tree := [.inst false (chs "m") (chs "m") [.port ⟨100, some 0, .input, [⟨0, 0, true⟩]⟩, .port ⟨101, some 1,
        .input, [⟨0, 7, true⟩]⟩, .port ⟨102, some 2, .output, [⟨0, 7, false⟩]⟩,
        .inst false (chs "inner") (chs "m.u") [.port ⟨103, some 3, .input, [⟨0, 0, true⟩]⟩, .port ⟨104, some 4,
        .input, [⟨0, 7, true⟩]⟩, .port ⟨105, some 5, .output, [⟨0, 7, false⟩]⟩, blk 0]
        [⟨.port 103 (some 3), some (.lsp 1 ⟨some 0, 0, 0⟩ []), false, true⟩,
         ⟨.port 104 (some 4), some (.lsp 8 ⟨some 1, 0, 7⟩ []), false, true⟩,
         ⟨.port 105 (some 5), some (.lsp 8 ⟨some 2, 0, 7⟩ []), true, true⟩]]
        []]
    blocks := [.procedural .alwaysFF (.timed (.signalEvent ⟨.posEdge, some 3⟩)) (nba (.lsp 8 ⟨some 5, 0,
        7⟩ []) (.lsp 8 ⟨some 4, 0, 7⟩ []))] }

theorem parallelAlwaysFfWithOutputPort_ok : meets parallelAlwaysFfWithOutputPort [
    .path (chs "m.a") (chs "m.z") true] = true := by
  decide +kernel

/-- Parallel: multiple always_ff output ports. tests/unit/ParallelTests.cpp:196-214. -/
def parallelMultipleAlwaysFfOutputPorts : Design' :=
  { sigs := [⟨chs "clk", 1, true, chs "m.clk"⟩, ⟨chs "a", 8, true, chs "m.a"⟩, ⟨chs "b", 8, true, chs "m.b"⟩,
      ⟨chs "x", 8, true, chs "m.x"⟩, ⟨chs "y", 8, true, chs "m.y"⟩]
    tree := [.inst false (chs "m") (chs "m") [.port ⟨100, some 0, .input, [⟨0, 0, true⟩]⟩, .port ⟨101, some 1,
        .input, [⟨0, 7, true⟩]⟩, .port ⟨102, some 2, .input, [⟨0, 7, true⟩]⟩, .port ⟨103, some 3, .output, [⟨0, 7,
        false⟩]⟩, .port ⟨104, some 4, .output, [⟨0, 7, false⟩]⟩, blk 0, blk 1]
        []]
    blocks := [.procedural .alwaysFF (.timed (.signalEvent ⟨.posEdge, some 0⟩)) (nba (.lsp 8 ⟨some 3, 0,
        7⟩ []) (.lsp 8 ⟨some 1, 0, 7⟩ [])),
      .procedural .alwaysFF (.timed (.signalEvent ⟨.posEdge, some 0⟩)) (nba (.lsp 8 ⟨some 4, 0,
          7⟩ []) (.lsp 8 ⟨some 2, 0, 7⟩ []))] }

theorem parallelMultipleAlwaysFfOutputPorts_ok : meets parallelMultipleAlwaysFfOutputPorts [
    .path (chs "m.a") (chs "m.x") true, .path (chs "m.b") (chs "m.y") true, .path (chs "m.a") (chs "m.y") false,
    .path (chs "m.b") (chs "m.x") false] = true := by
  decide +kernel

end Verif.Conform.Modules

import Verif.Conform.Base

/-!
The model on the designs of `tests/unit/InterfaceTests.cpp` (its first test is in `Verif.Conform.Dot`). What
slang says about the modport ports, the variables behind each use of one, is entered by hand. These are tests
of the model, not proofs about the code.
-/
namespace Verif.Conform.Interfaces
open Verif.Model

/-- A modport with a connection expression. tests/unit/InterfaceTests.cpp:40-69. Bit 0 of the modport port `foo`
is the variable `a`, bit 1 the variable `b`. -/
def connExpr : Design' :=
  { sigs := [⟨chs "a", 1, false, chs "m.i.a"⟩, ⟨chs "b", 1, false, chs "m.i.b"⟩, ⟨chs "foo", 2, false, chs "m.i.m.foo"⟩,
      ⟨chs "x", 1, true, chs "m.a1.x"⟩, ⟨chs "x", 1, true, chs "m.b1.x"⟩, ⟨chs "a", 1, true, chs "m.a"⟩,
      ⟨chs "b", 1, true, chs "m.b"⟩]
    design := fun D => { D with
      kind := fun n => if n = 2 then .modportPort else if n = 0 ∨ n = 1 then .variable else .other
      iface := fun n e => if n = 2 then (if e = 0 then [(0, ⟨0, 0⟩)] else [(1, ⟨0, 0⟩)]) else [] }
    tree := top [outp 5, outp 6,
      .inst false (chs "I") (chs "m.i") [.variable 0 true [(0, 0)], .variable 1 true [(0, 0)]] [],
      blk 0, blk 1,
      .inst false (chs "foo") (chs "m.a1") [outp 3, blk 2]
        [⟨.interface, none, false, true⟩, ⟨.port 103 (some 3), some (sl 5), true, true⟩],
      .inst false (chs "bar") (chs "m.b1") [outp 4, blk 3]
        [⟨.interface, none, false, true⟩, ⟨.port 104 (some 4), some (sl 6), true, true⟩]]
    blocks := [cont (sl 0) (kInt .one), cont (sl 1) (kInt .one), cont (sl 3) (sl 2 0 0), cont (sl 4) (sl 2 1 1)] }

theorem connExpr_ok : meets connExpr [
    .path (chs "m.i.a") (chs "m.a") true, .path (chs "m.i.b") (chs "m.b") true,
    .path (chs "m.i.a") (chs "m.b") false, .path (chs "m.i.b") (chs "m.a") false] = true := by
  decide +kernel

/-- An instance with an interface. tests/unit/InterfaceTests.cpp:71-101. The inputs `a` and `b` of the modport have
no drivers, so no nodes. -/
def adder : Design' :=
  { sigs := [⟨chs "a", 32, false, chs "m.i.a"⟩, ⟨chs "b", 32, false, chs "m.i.b"⟩, ⟨chs "sum", 32, false, chs "m.i.sum"⟩,
      ⟨chs "co", 1, false, chs "m.i.co"⟩, ⟨chs "a", 32, false, chs "m.i.test.a"⟩, ⟨chs "b", 32, false, chs "m.i.test.b"⟩,
      ⟨chs "sum", 32, false, chs "m.i.test.sum"⟩, ⟨chs "co", 1, false, chs "m.i.test.co"⟩,
      ⟨chs "sum", 32, false, chs "m.adder0.sum"⟩, ⟨chs "co", 1, false, chs "m.adder0.co"⟩]
    design := fun D => { D with
      kind := fun n => if 4 ≤ n ∧ n < 8 then .modportPort else if n < 10 then .variable else .other
      iface := fun n _ => if n = 7 then [(3, ⟨0, 0⟩)] else if 4 ≤ n ∧ n < 7 then [(n - 4, ⟨0, 31⟩)] else [] }
    tree := top [
      .inst false (chs "my_if") (chs "m.i")
        [.variable 0 true [], .variable 1 true [], .variable 2 true [(0, 31)], .variable 3 true [(0, 0)]] [],
      .inst false (chs "adder") (chs "m.adder0") [.variable 8 false [(0, 31)], .variable 9 false [(0, 0)], blk 0, blk 1, blk 2]
        [⟨.interface, none, false, true⟩]]
    blocks := [cont (.concat 33 [sl 9, sl 8 31 0]) (op 33 [pth 4 31 0, pth 5 31 0]),
      cont (sl 6 31 0) (sl 8 31 0), cont (sl 7) (sl 9)] }

theorem adder_ok : meets adder [.moreNodes 0] = true := by
  decide +kernel

/-- An element of an array of interfaces. tests/unit/InterfaceTests.cpp:103-127. Only the element that is used is
entered; the others have no drivers. -/
def array : Design' :=
  { sigs := [⟨chs "in", 32, true, chs "m.in"⟩, ⟨chs "out", 32, true, chs "m.out"⟩, ⟨chs "a", 32, false, chs "m.i[0][0].a"⟩,
      ⟨chs "a", 32, false, chs "m.i[0][0].produce.a"⟩, ⟨chs "a", 32, false, chs "m.i[0][0].consume.a"⟩,
      ⟨chs "x", 32, true, chs "m.p.x"⟩, ⟨chs "x", 32, true, chs "m.c.x"⟩]
    design := fun D => { D with
      kind := fun n => if n = 3 ∨ n = 4 then .modportPort else if n = 2 then .variable else .other
      iface := fun n _ => if n = 3 ∨ n = 4 then [(2, ⟨0, 31⟩)] else [] }
    tree := top [inp 0 32, outp 1 32,
      .group false [.group false [.inst false (chs "if_foo") (chs "m.i[0][0]") [.variable 2 true [(0, 31)]] []]],
      .inst false (chs "produce") (chs "m.p") [inp 5 32, blk 0]
        [⟨.interface, none, false, true⟩, ⟨.port 105 (some 5), some (sl 0 31 0), false, true⟩],
      .inst false (chs "consume") (chs "m.c") [outp 6 32, blk 1]
        [⟨.interface, none, false, true⟩, ⟨.port 106 (some 6), some (sl 1 31 0), true, true⟩]]
    blocks := [cont (sl 3 31 0) (sl 5 31 0), cont (sl 6 31 0) (sl 4 31 0)] }

theorem array_ok : meets array [.path (chs "m.in") (chs "m.out") true] = true := by
  decide +kernel

/-- A modport port behind a modport port. tests/unit/InterfaceTests.cpp:129-157. The variable behind `val` is that
behind `inner.x`; the first path check is the one the comment of the test has in mind. -/
def nested : Design' :=
  { sigs := [⟨chs "out", 1, true, chs "m.out"⟩, ⟨chs "x", 1, false, chs "m.intf.x"⟩, ⟨chs "val", 1, false, chs "m.wrap.wrapped.val"⟩,
      ⟨chs "y", 1, true, chs "m.s.y"⟩]
    design := fun D => { D with
      kind := fun n => if n = 2 then .modportPort else if n = 1 then .variable else .other
      iface := fun n _ => if n = 2 then [(1, ⟨0, 0⟩)] else [] }
    tree := top [outp 0,
      .inst false (chs "inner_if") (chs "m.intf") [.variable 1 true [(0, 0)]] [],
      .inst false (chs "outer_if") (chs "m.wrap") [] [⟨.interface, none, false, true⟩],
      blk 0,
      .inst false (chs "sink") (chs "m.s") [outp 3, blk 1]
        [⟨.interface, none, false, true⟩, ⟨.port 103 (some 3), some (sl 0), true, true⟩]]
    blocks := [cont (sl 1) (kInt .one), cont (sl 3) (sl 2)] }

theorem nested_ok : meets nested [.path (chs "m.intf.x") (chs "m.out") true, .moreNodes 0] = true := by
  decide +kernel

/-- An element of an unpacked array behind a modport port. tests/unit/InterfaceTests.cpp:159-180. The element
`data[0]` is taken to be the lowest four of the sixteen bits. -/
def indexed : Design' :=
  { sigs := [⟨chs "out", 4, true, chs "m.out"⟩, ⟨chs "data", 16, false, chs "m.intf.data"⟩, ⟨chs "val", 4, false, chs "m.intf.reader.val"⟩,
      ⟨chs "y", 4, true, chs "m.c.y"⟩]
    design := fun D => { D with
      kind := fun n => if n = 2 then .modportPort else if n = 1 then .variable else .other
      iface := fun n _ => if n = 2 then [(1, ⟨0, 3⟩)] else [] }
    tree := top [outp 0 4,
      .inst false (chs "I") (chs "m.intf") [.variable 1 true [(0, 3)]] [],
      blk 0,
      .inst false (chs "consumer") (chs "m.c") [outp 3 4, blk 1]
        [⟨.interface, none, false, true⟩, ⟨.port 103 (some 3), some (sl 0 3 0), true, true⟩]]
    blocks := [cont (sl 1 3 0) (.other 4 (some [.zero, .one, .zero, .one]) []), cont (sl 3 3 0) (sl 2 3 0)] }

theorem indexed_ok : meets indexed [.path (chs "m.intf.data") (chs "m.out") true, .moreNodes 0] = true := by
  decide +kernel

end Verif.Conform.Interfaces

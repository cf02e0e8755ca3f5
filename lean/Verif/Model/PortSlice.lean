import Verif.Model.BitSlice

/-!
Port connections: `source/PortConnectionHandler.cpp`.
-/
namespace Verif.Model

/-- A registered port node (source/PortConnectionHandler.cpp:311, 325): its ID and `getBounds()` as
lower and upper bit. Bounds come from port types, so they are not negative. -/
structure PortNd where
  id : Nat
  bounds : Option (Nat × Nat)
deriving DecidableEq, Repr

/-- The cut-point grid (source/PortConnectionHandler.cpp:320-337). -/
def portCuts (nodes : List PortNd) (fullWidth : Nat) : List Nat :=
  sortUnique (0 :: fullWidth :: nodes.flatMap fun n =>
    match n.bounds with
    | none => []
    | some b => [b.1, b.2 + 1])

/-- The sources of one grid cell (source/PortConnectionHandler.cpp:342-354). -/
def portSources (nodes : List PortNd) (segLo segHi : Nat) : List Src :=
  nodes.filterMap fun n =>
    match n.bounds with
    | none => none
    | some b =>
      if b.1 ≤ segLo ∧ segHi ≤ b.2 + 1 then some (.portNode n.id segLo segHi) else none

/-- `buildPortSliceList` (source/PortConnectionHandler.cpp:300-358). -/
def buildPortSliceList (nodes : List PortNd) (fullWidth : Nat) : List Slice :=
  if fullWidth = 0 then []
  else (pairs (portCuts nodes fullWidth)).map fun c => ⟨c.1, c.2, portSources nodes c.1 c.2⟩

/-- `handlePortConnection` (source/PortConnectionHandler.cpp:195-254) for a present, good
connection expression, with the assignment around an output's expression already removed. The actual
is decomposed without cut hints (line 240). -/
def handlePortConnection (resolveBits integral : Bool) (nodes : List PortNd) (fullWidth : Nat)
    (actual : SExpr) : Walk :=
  if !resolveBits then .legacy
  else if !integral then .legacy
  else
    let portList := buildPortSliceList nodes fullWidth
    if listWidth portList = 0 then .nothing
    else
      let actualList := build true (fun _ => none) actual
      if listWidth portList ≠ listWidth actualList then .legacy
      else walkSegments portList actualList

/-- The port nodes of a segment (source/PortConnectionHandler.cpp:367-372). -/
def Seg.portNodes (seg : Seg) : List Nat :=
  seg.lhs.filterMap fun s =>
    match s with
    | .portNode n _ _ => some n
    | _ => none

/-- `collectActualCuts` (source/PortConnectionHandler.cpp:83-100) for a value path. The registry's hint list is read
as in `pushLsp`. The appended positions are returned. -/
def lspCuts (reg : CutReg) (base : Nat) (p : LspPath) : List Nat :=
  match p.root with
  | none => []
  | some sym =>
    match reg.cutsFor sym with
    | none => []
    | some hints => (hintsOf hints p).map fun c => base + (c - p.lo)

/-- The replication loop (source/PortConnectionHandler.cpp:53-61): `i` counts up, `n` rounds
remain. -/
def replCuts (f : Nat → List Nat) (base unit w : Nat) : Nat → Nat → List Nat
  | _, 0 => []
  | i, n + 1 =>
    f (base + i * unit) ++
      (if base + (i + 1) * unit ≠ base + w then [base + (i + 1) * unit] else []) ++
      replCuts f base unit w (i + 1) n

mutual
/-- `collectActualCuts` (source/PortConnectionHandler.cpp:23-106). -/
def collectActualCuts (reg : CutReg) (base : Nat) : SExpr → List Nat
  | .lsp _ p _ => lspCuts reg base p
  | .concat w ops => (collectOps reg base w ops).1
  | .repl w count inner =>
    match count with
    | none => []
    | some c => replCuts (fun b => collectActualCuts reg b inner) base inner.width w 0 c.toNat
  | .conv w _ _ inner =>
    if w = inner.width then collectActualCuts reg base inner
    else if w > inner.width then collectActualCuts reg base inner ++ [base + inner.width]
    else []
  | .condOp .. => []
  | .other .. => []

/-- The reversed operand loop of a concatenation (source/PortConnectionHandler.cpp:30-40): cuts and
the offset reached. -/
def collectOps (reg : CutReg) (base w : Nat) : List SExpr → List Nat × Nat
  | [] => ([], base)
  | e :: es =>
    let rest := collectOps reg base w es
    let offset := rest.2 + e.width
    (rest.1 ++ collectActualCuts reg rest.2 e ++ (if offset ≠ base + w then [offset] else []),
      offset)
end

end Verif.Model

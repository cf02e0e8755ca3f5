import Verif.Model.Traverse

/-!
From the text of blocks to what the analysis does with it: assignments with their two expressions are
turned into the notes or segments of `Verif.Model.Dataflow`. `source/DataFlowAnalysis.hpp:136-177`,
`source/DataFlowAnalysis.cpp:154-194, 215-349, 465-497`, `source/NodeFactory.cpp:34-54`.

How slang visits an expression is not part of the repository; operands are taken to be visited from left
to right. A conditional operator makes slang's analysis split and join the state, which is not modelled
inside expressions.
-/
namespace Verif.Model

/-- What the analysis of a block reads besides its text: options, numbers of paths and the rendering of
constants, the cut registry (none if cuts are not propagated, source/DataFlowAnalysis.cpp:268-270), and
which symbols are automatic variables (lines 180-185). -/
structure SynEnv where
  T : TravEnv
  cuts : CutReg
  auto : Nat → Bool

/-- An assignment expression (source/DataFlowAnalysis.cpp:227-349): its place, whether both types are
integral, `isLValueArg()`, `prohibitLValue` (it is in a `force` statement), and its sides. `origin` is
the place given to constants without an expression of their own (line 333), which is the place of the
assignment in the code; they are two fields so that theorems can give assignments places of their own.
The place of a constant's own expression (source/NodeFactory.cpp:50-52) is not modelled. -/
structure SAsg where
  loc : TextLoc
  origin : TextLoc
  integral : Bool := true
  lvalueArg : Bool := false
  force : Bool := false
  lhs : SExpr
  rhs : SExpr

/-- Statements with their expressions. `eval` visits an expression (an argument of a system task, a
condition that is constant), `cond` is a conditional (`false`) or case (`true`) with its conditions or
its selector and items, followed by its alternatives (source/DataFlowAnalysis.cpp:351-372). The others are
those of `Stmt`. -/
inductive SStmt where
  | skip
  | eval (e : SExpr)
  | assign (blocking : Bool) (a : SAsg)
  | cond (isCase : Bool) (loc : TextLoc) (es : List SExpr) (t : SStmt)
  | dead
  | seq (s t : SStmt)
  | choose (intoFirst : Bool) (s t : SStmt)

/-- The symbol of a deferred block (source/BuildPipeline.hpp:54-57) with its text. -/
inductive SDeferred where
  | procedural (kind : ProcKind) (body : ProcBody) (st : SStmt)
  | continuous (a : SAsg)

/-- A design with the text of its blocks. A deferred block is a reference to a symbol
(source/BuildPipeline.hpp:54-57); the entries in `tree` stand for these references, and what they contain
is not used. -/
structure SrcDesign where
  tree : List Member
  text : Deferred → SDeferred

/-- A use of part of a path (source/DataFlowAnalysis.cpp:169-187). -/
def SynEnv.ref (S : SynEnv) (x : Nat) (p : LspPath) (b : BitRange) : Ref := ⟨x, b, S.T.lspId p, S.auto x⟩

/-- What a path with its full bounds gives to `noteReference`: nothing without a root symbol
(source/DataFlowAnalysis.cpp:169-187). -/
def SynEnv.note (S : SynEnv) (write : Bool) (p : LspPath) : Option Note :=
  p.root.map fun x => ⟨write, S.ref x p ⟨p.lo, p.hi⟩⟩

mutual
/-- The uses noted while an expression is visited: selectors are read before the path they are part of
(source/DataFlowAnalysis.hpp:136-177). -/
def notesOf (S : SynEnv) (write : Bool) : SExpr → List Note
  | .lsp _ p sels => notesAll S false sels ++ (S.note write p).toList
  | .concat _ ops => notesAll S write ops
  | .repl _ _ inner => notesOf S write inner
  | .conv _ _ _ inner => notesOf S write inner
  | .condOp _ _ _ more c l r =>
    notesOf S write c ++ more.filterMap (S.note write) ++ notesOf S write l ++ notesOf S write r
  | .other _ _ reads => reads.filterMap (S.note write)

/-- Several expressions (source/DataFlowAnalysis.hpp:136-177). -/
def notesAll (S : SynEnv) (write : Bool) : List SExpr → List Note
  | [] => []
  | e :: es => notesOf S write e ++ notesAll S write es
end

/-- The left side of a segment (source/DataFlowAnalysis.cpp:299-309, 465-480). A path without a root symbol
is dereferenced (line 470). -/
def elabLhs (S : SynEnv) (seg : Seg) : List Src → Except Fault (List Ref)
  | [] => .ok []
  | .lsp p lo _ :: xs =>
    match p.root with
    | none => .error .oob
    | some x =>
      match elabLhs S seg xs with
      | .error e => .error e
      | .ok rs => .ok (S.ref x p (lspRange p lo seg) :: rs)
  | _ :: xs => elabLhs S seg xs

/-- The right side of a segment (source/DataFlowAnalysis.cpp:312-341, 482-497). -/
def elabRhs (S : SynEnv) (a : SAsg) (seg : Seg) : List Src → Except Fault (List RSrc)
  | [] => .ok []
  | x :: xs =>
    match elabRhs S a seg xs with
    | .error e => .error e
    | .ok rs =>
      match x with
      | .lsp p lo _ =>
        match p.root with
        | none => .error .oob
        | some y => .ok (.lsp (S.ref y p (lspRange p lo seg)) :: rs)
      | .opaque e => .ok (.opaque ((notesOf S false e).map (·.ref)) :: rs)
      | .padding _ => .ok (.padding :: rs)
      | .const v lo _ =>
        .ok (.constant (S.T.render (constantForSegment v lo seg).1) (constantForSegment v lo seg).2 a.origin :: rs)
      | .portNode .. => .error .unreachable

/-- The loop over the segments (source/DataFlowAnalysis.cpp:287-342). `place` gives the places of the
segments' nodes; in the code it is that of the assignment (line 294, `atLoc`). -/
def elabSegs (S : SynEnv) (place : TextLoc → Nat → TextLoc) (a : SAsg) : Nat → List Seg → Except Fault (List DSeg)
  | _, [] => .ok []
  | i, seg :: segs =>
    match (if a.force then .ok [] else elabLhs S seg seg.lhs) with
    | .error e => .error e
    | .ok l =>
      match (if a.lvalueArg then .ok [] else elabRhs S a seg seg.rhs) with
      | .error e => .error e
      | .ok r =>
        match elabSegs S place a (i + 1) segs with
        | .error e => .error e
        | .ok gs => .ok (⟨l, r, place a.loc i⟩ :: gs)

/-- An assignment (source/DataFlowAnalysis.cpp:227-349). -/
def elabAsg (S : SynEnv) (place : TextLoc → Nat → TextLoc) (a : SAsg) : Except Fault Asg :=
  match assignWalk S.T.opts.resolveBits a.integral S.cuts a.lhs a.rhs with
  | .legacy => .ok (.legacy (notesOf S (!a.force) a.lhs ++ if a.lvalueArg then [] else notesOf S false a.rhs))
  | .nothing => .ok (.aligned [])
  | .assertFails => .error .unreachable
  | .segments segs =>
    match elabSegs S place a 0 segs with
    | .error e => .error e
    | .ok gs => .ok (.aligned gs)

/-- A statement (source/DataFlowAnalysis.cpp:215-372). -/
def elabStmt (S : SynEnv) (place : TextLoc → Nat → TextLoc) : SStmt → Except Fault Stmt
  | .skip => .ok .skip
  | .eval e => .ok (.reads ((notesOf S false e).map (·.ref)))
  | .assign b a =>
    match elabAsg S place a with
    | .error e => .error e
    | .ok x => .ok (.assign (place a.loc 0) b x)
  | .cond k loc es t =>
    match elabStmt S place t with
    | .error e => .error e
    | .ok u => .ok (.seq (.branch k (place loc 0)) (.seq (.reads ((notesAll S false es).map (·.ref))) u))
  | .dead => .ok .dead
  | .seq s t =>
    match elabStmt S place s with
    | .error e => .error e
    | .ok u =>
      match elabStmt S place t with
      | .error e => .error e
      | .ok v => .ok (.seq u v)
  | .choose i s t =>
    match elabStmt S place s with
    | .error e => .error e
    | .ok u =>
      match elabStmt S place t with
      | .error e => .error e
      | .ok v => .ok (.choose i u v)

/-- A block (source/NetlistBuilder.cpp:538-556). -/
def elabBlock (S : SynEnv) (place : TextLoc → Nat → TextLoc) : SDeferred → Except Fault Deferred
  | .procedural k body st =>
    match elabStmt S place st with
    | .error e => .error e
    | .ok u => .ok (.procedural k body u)
  | .continuous a =>
    match elabAsg S place a with
    | .error e => .error e
    | .ok x => .ok (.continuous (place a.loc 0) x)

/-- The places of the code: all segments have the place of their assignment
(source/DataFlowAnalysis.cpp:294, source/NodeFactory.cpp:8-13). -/
def atLoc : TextLoc → Nat → TextLoc := fun l _ => l

/-- The cuts the analysis of blocks uses (source/DataFlowAnalysis.cpp:268-270). -/
def Col.synCuts (E : TravEnv) (c : Col) : CutReg := if E.opts.propCuts then c.cuts else fun _ => none

/-- `runPhase2Sequential` (source/BuildPipeline.cpp:40-55) on the text of the blocks. A failure of an
assignment is reported before its block is analysed, not when the assignment is reached. -/
def Bld.runTexts (S : SynEnv) (place : TextLoc → Nat → TextLoc) (ord : Tracker → List (Nat × Nat)) (s : Bld) :
    List SDeferred → Except Fault Bld
  | [] => .ok s
  | b :: bs =>
    match elabBlock S place b with
    | .error e => .error e
    | .ok b' =>
      match s.handleBlock S.T.D ord b' with
      | .error e => .error e
      | .ok s' => s'.runTexts S place ord bs

/-- `build` and `finalize` (source/NetlistBuilder.cpp:65-67, source/BuildPipeline.cpp:134-155), sequential,
from the text of a design. `auto` tells the automatic variables. -/
def netlistOf (E : TravEnv) (auto : Nat → Bool) (place : TextLoc → Nat → TextLoc) (ord : Tracker → List (Nat × Nat))
    (src : SrcDesign) : Except Fault NetGraph :=
  match phase1 E src.tree with
  | .error e => .error e
  | .ok c =>
    match c.start with
    | .error e => .error e
    | .ok s =>
      match s.runTexts ⟨E, c.synCuts E, auto⟩ place ord (c.blocks.map src.text) with
      | .error e => .error e
      | .ok s' => resolveSequential (s'.ctx E.D) s'.net s'.queue

end Verif.Model

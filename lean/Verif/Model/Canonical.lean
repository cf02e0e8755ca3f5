/-!
`CanonicalBodyResolver` (source/CanonicalBodyResolver.cpp): from a signal of a non-canonical instance
body to the corresponding signal of the canonical one. Symbols are numbers; bodies and values are
numbered separately.
-/
namespace Verif.Model

/-- The scopes without a body of their own that are traversed
(source/CanonicalBodyResolver.cpp:121-133). -/
inductive ScopeKind where
  | generateBlock | generateBlockArray | instanceArray
deriving DecidableEq, Repr

/-- The members of a scope in order, as a list whose items may contain member lists: a value symbol,
an instance with its body and `getCanonicalBody()`, a scope without body, or a symbol that is none of
these (source/CanonicalBodyResolver.cpp:94-135). -/
inductive Mems where
  | nil
  | value (v : Nat) (rest : Mems)
  | inst (body : Nat) (canon : Option Nat) (ms : Mems) (rest : Mems)
  | scope (k : ScopeKind) (ms : Mems) (rest : Mems)
  | other (rest : Mems)
deriving DecidableEq, Repr

/-- One member (source/CanonicalBodyResolver.cpp:95-134). -/
inductive Item where
  | value (v : Nat)
  | inst (body : Nat) (canon : Option Nat) (ms : Mems)
  | scope (k : ScopeKind) (ms : Mems)
  | other

/-- The first member and the others (the iterators of source/CanonicalBodyResolver.cpp:90-94). -/
def Mems.uncons : Mems → Option (Item × Mems)
  | .nil => none
  | .value v r => some (.value v, r)
  | .inst b c ms r => some (.inst b c ms, r)
  | .scope k ms r => some (.scope k ms, r)
  | .other r => some (.other, r)

/-- What the resolver reads from the elaborated design: the members of a body, its instance's
`getCanonicalBody()` (`none` also for a body without `parentInstance`), the enclosing bodies of a
body, itself first (source/CanonicalBodyResolver.cpp:40, 57-63), and the body a value is declared in
(source/CanonicalBodyResolver.cpp:16-17). -/
structure Forest where
  members : Nat → Mems
  canon : Nat → Option Nat
  chain : Nat → List Nat
  home : Nat → Option Nat

/-- `valueCache` and `bodyCache` (source/CanonicalBodyResolver.hpp:45-52). -/
structure Caches where
  v : Nat → Option Nat := fun _ => none
  b : Nat → Option Nat := fun _ => none

/-- `valueCache.emplace` (source/CanonicalBodyResolver.cpp:26, 96-97): an existing entry stays. -/
def Caches.addV (C : Caches) (x y : Nat) : Caches :=
  { C with v := fun z => if z = x then (C.v x).or (some y) else C.v z }

/-- `bodyCache.emplace` (source/CanonicalBodyResolver.cpp:68, 75, 84, 114-117): an existing entry stays. -/
def Caches.addB (C : Caches) (x y : Nat) : Caches :=
  { C with b := fun z => if z = x then (C.b x).or (some y) else C.b z }

/-- `populatePairedBodies` (source/CanonicalBodyResolver.cpp:88-136). The first argument is the local
scope, the second the canonical one. -/
def populate (F : Forest) : Mems → Mems → Caches → Caches
  | .nil, _, C => C
  | .value v r, cs, C =>
    match cs.uncons with
    | none => C
    | some (.value w, cs') => populate F r cs' (C.addV v w)
    | some (_, cs') => populate F r cs' C
  | .inst b _ ms r, cs, C =>
    match cs.uncons with
    | none => C
    | some (.inst b' c' _, cs') =>
      let t := c'.getD b'
      if b ≠ t then populate F r cs' (populate F ms (F.members t) (C.addB b t))
      else populate F r cs' (C.addB b b)
    | some (_, cs') => populate F r cs' C
  | .scope k ms r, cs, C =>
    match cs.uncons with
    | none => C
    | some (.scope k' ms', cs') =>
      if k = k' then populate F r cs' (populate F ms ms' C) else populate F r cs' C
    | some (_, cs') => populate F r cs' C
  | .other r, cs, C =>
    match cs.uncons with
    | none => C
    | some (_, cs') => populate F r cs' C

/-- The walk up to an anchor (source/CanonicalBodyResolver.cpp:40-64): the first enclosing body that
is cached or whose instance has another body as canonical one, with its canonical body. -/
def findAnchor (F : Forest) (C : Caches) : List Nat → Option (Nat × Nat)
  | [] => none
  | cur :: up =>
    match C.b cur with
    | some c => some (cur, c)
    | none =>
      match F.canon cur with
      | some d => if d ≠ cur then some (cur, d) else findAnchor F C up
      | none => findAnchor F C up

/-- `getCanonicalBody` (source/CanonicalBodyResolver.cpp:30-86). -/
def getCanonicalBody (F : Forest) (C : Caches) (body : Nat) : Caches × Nat :=
  match C.b body with
  | some c => (C, c)
  | none =>
    match findAnchor F C (F.chain body) with
    | none => (C.addB body body, body)
    | some (anchor, canonical) =>
      if canonical = anchor then (C.addB body body, body)
      else
        let C' := populate F (F.members anchor) (F.members canonical) (C.addB anchor canonical)
        match C'.b body with
        | some c => (C', c)
        | none => (C'.addB body body, body)

/-- `getCanonicalValueSymbol` (source/CanonicalBodyResolver.cpp:8-28). -/
def getCanonicalValueSymbol (F : Forest) (C : Caches) (sym : Nat) : Caches × Nat :=
  match C.v sym with
  | some w => (C, w)
  | none =>
    match F.home sym with
    | none => (C.addV sym sym, sym)
    | some body =>
      let C' := (getCanonicalBody F C body).1
      match C'.v sym with
      | some w => (C', w)
      | none => (C'.addV sym sym, sym)

/-- A query of the resolver (source/CanonicalBodyResolver.hpp:23-33). -/
inductive CQuery where
  | value (v : Nat)
  | body (b : Nat)
deriving DecidableEq, Repr

/-- One query (source/CanonicalBodyResolver.cpp:8-86): the caches it leaves and its answer. -/
def CQuery.ask (F : Forest) (C : Caches) : CQuery → Caches × Nat
  | .value v => getCanonicalValueSymbol F C v
  | .body b => getCanonicalBody F C b

/-- The caches after a sequence of queries on a new resolver (source/CanonicalBodyResolver.cpp:8-86). -/
def askAll (F : Forest) : Caches → List CQuery → Caches
  | C, [] => C
  | C, q :: qs => askAll F (q.ask F C).1 qs

end Verif.Model

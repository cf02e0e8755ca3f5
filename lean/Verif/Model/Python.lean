import Verif.Model.Cli

/-!
The Python bindings (bindings/python/pyslang_netlist.cpp): Python objects, what keeps them alive, and the
calls a Python program can make. How pybind11 converts pointers is not part of the repository; it is
modelled by its documented behaviour: a pointer that already has a live Python object gives that object,
otherwise a new object is made, which keeps its parent alive under `reference_internal` (used by
`make_iterator`) and nothing under `reference`; `keep_alive<0, 1>` lets the result keep the object the
method was called on. Python objects die as soon as nothing refers to them. Memory that has been freed is
not used again.
-/
namespace Verif.Model

/-- The objects the bindings make (bindings/python/pyslang_netlist.cpp:73-74, 100-106, 249, 323-342): a
graph with its netlist and the number of builds so far, a node (as the graph object that owns it and its address), an
iterator over a graph with its position and the number of builds when it was made, a path, and an iterator
over a path. `DriverBitRange`, `VisitAll`, `NetlistEdge` and `PathFinder` objects hold no nodes that Python
can reach and are left out. -/
inductive PyVal where
  | graph (s : Session) (builds : Nat)
  | node (g n : Nat)
  | iter (g pos builds : Nat)
  | path (ns : List (Nat × Nat))
  | pathIter (p pos : Nat)

/-- All objects made so far, what each keeps alive, and the references held by the program, including
those in lists it holds (bindings/python/pyslang_netlist.cpp:73-355). -/
structure PySt where
  size : Nat := 0
  val : Nat → PyVal := fun _ => .path []
  keeps : Nat → List Nat := fun _ => []
  vars : List Nat := []

/-- The live objects below `k`, newest first, given references from outside (CPython's reference counts;
keep_alive at bindings/python/pyslang_netlist.cpp:105, 342). Objects keep older objects only. -/
def liveFrom (keeps : Nat → List Nat) : Nat → List Nat → List Nat
  | 0, _ => []
  | k + 1, roots =>
    if k ∈ roots then k :: liveFrom keeps k (keeps k ++ roots) else liveFrom keeps k roots

/-- The live objects (bindings/python/pyslang_netlist.cpp:105, 342). -/
def PySt.live (s : PySt) : List Nat := liveFrom s.keeps s.size s.vars

/-- Is this the object of the node (bindings/python/pyslang_netlist.cpp:249)? -/
def PyVal.isNode (g n : Nat) : PyVal → Bool
  | .node g' n' => decide (g' = g ∧ n' = n)
  | _ => false

/-- A new object, to which the program holds a reference (bindings/python/pyslang_netlist.cpp:73-355). -/
def PySt.make (s : PySt) (v : PyVal) (ks : List Nat) : PySt × Nat :=
  ({ size := s.size + 1
     val := fun i => if i = s.size then v else s.val i
     keeps := fun i => if i = s.size then ks else s.keeps i
     vars := s.size :: s.vars }, s.size)

/-- Changing the C++ object behind a Python object (bindings/python/pyslang_netlist.cpp:107-120). -/
def PySt.set (s : PySt) (i : Nat) (v : PyVal) : PySt :=
  { s with val := fun j => if j = i then v else s.val j }

/-- `py::cast` of a node pointer (bindings/python/pyslang_netlist.cpp:79, 90, 102-104, 152, 163, 175, 187,
200, 211, 227, 328-342): with policy `reference`, or `reference_internal` and a parent. -/
def PySt.castNode (s : PySt) (g n : Nat) (parent : List Nat) : PySt × Nat :=
  match s.live.find? fun i => (s.val i).isNode g n with
  | some i => ({ s with vars := i :: s.vars }, i)
  | none => s.make (.node g n) parent

/-- A list of nodes (bindings/python/pyslang_netlist.cpp:86-93, 148-155, 161-166, 173-178, 185-190,
198-203, 225-230). -/
def PySt.castNodes (s : PySt) (g : Nat) : List Nat → PySt × List Nat
  | [] => (s, [])
  | n :: ns =>
    let r := s.castNode g n []
    let rs := r.1.castNodes g ns
    (rs.1, r.2 :: rs.2)

/-- The queries by name (bindings/python/pyslang_netlist.cpp:75-95, 144-157, 182-204). -/
inductive PyQuery where
  | lookup (name : Str)
  | lookupByRange (name : Str) (lower upper : Int)
  | drivers (name : Str) (lower upper : Int)
  | find (pattern : Str)
  | findRegex (pattern : Str)

/-- The queries on a node (bindings/python/pyslang_netlist.cpp:158-181, 222-236). -/
inductive PyCone where
  | fanOut | fanIn | constants
deriving DecidableEq

/-- The nodes a query by name gives (bindings/python/pyslang_netlist.cpp:78-79, 86-87, 148-149,
186, 199). `regex` stands for `std::regex_match`; patterns that are not regular expressions throw and are
left out. -/
def PyQuery.run (regex : Str → Str → Bool) (s : Session) : PyQuery → List Nat
  | .lookup name => (s.lookup name).toList
  | .lookupByRange name lo hi => s.lookupRange name ⟨lo, hi⟩
  | .drivers name lo hi => getDrivers s.net name ⟨lo, hi⟩
  | .find pat => s.findNodes (globName pat)
  | .findRegex pat => s.findNodes (regex pat)

/-- The queries that build the index of names (source/NetlistGraph.cpp:40, 49, 260, 273). -/
def PyQuery.indexed : PyQuery → Bool
  | .drivers .. => false
  | _ => true

/-- The nodes a query on a node gives (bindings/python/pyslang_netlist.cpp:162, 174, 226). -/
def PyCone.run (net : NetGraph) (n : Nat) : PyCone → List Nat
  | .fanOut => combFanOut net n
  | .fanIn => combFanIn net n
  | .constants => constantDrivers net n

/-- The calls of a Python program (bindings/python/pyslang_netlist.cpp:73-355). Objects are named by their
number. `build` is given the changes it makes to the netlist. -/
inductive PyOp where
  | newGraph
  | build (g : Nat) (ops : List NetOp)
  | query (g : Nat) (q : PyQuery)
  | cone (g : Nat) (q : PyCone) (h : Nat)
  | sensitivity (g h : Nat)
  | counts (g : Nat)
  | iter (i : Nat)
  | next (i : Nat)
  | findPath (comb : Bool) (a b : Nat)
  | newPath (hs : List Nat)
  | len (p : Nat)
  | front (p : Nat)
  | back (p : Nat)
  | item (p i : Nat)
  | read (h : Nat)
  | drop (i : Nat)

/-- What a call gives: nothing, a list of objects, numbers, the attributes of a node, nodes with edge
kinds, the end of an iteration, or an exception (bindings/python/pyslang_netlist.cpp:73-355). -/
inductive PyRet where
  | none
  | objs (is : List Nat)
  | num (a b : Nat)
  | data (id : Nat) (d : NodeData) (driven : Bool)
  | clocks (l : List (Nat × EdgeKind))
  | stop
  | raised

/-- The graph argument of a call; anything else is a `TypeError` (bindings/python/pyslang_netlist.cpp:73). -/
def PySt.graphOf (s : PySt) (g : Nat) : Option (Session × Nat) :=
  if g ∈ s.vars then
    match s.val g with
    | .graph ss b => some (ss, b)
    | _ => none
  else none

/-- The node argument of a call; anything else is a `TypeError` (bindings/python/pyslang_netlist.cpp:249). -/
def PySt.nodeOf (s : PySt) (h : Nat) : Option (Nat × Nat) :=
  if h ∈ s.vars then
    match s.val h with
    | .node g n => some (g, n)
    | _ => none
  else none

/-- The path argument of a call; anything else is a `TypeError` (bindings/python/pyslang_netlist.cpp:323). -/
def PySt.pathOf (s : PySt) (p : Nat) : Option (List (Nat × Nat)) :=
  if p ∈ s.vars then
    match s.val p with
    | .path ns => some ns
    | _ => none
  else none

/-- The netlist behind a node, `none` if its memory has been freed with the graph object
(bindings/python/pyslang_netlist.cpp:73; nodes are owned by the graph,
include/netlist/DirectedGraph.hpp:360-361, 481). -/
def PySt.mem (s : PySt) (g : Nat) : Option Session :=
  if g ∈ s.live then
    match s.val g with
    | .graph ss _ => some ss
    | _ => none
  else none

/-- Handing out a node (bindings/python/pyslang_netlist.cpp:100-106, 328-342). The conversion looks at the
dynamic type of the node, so the node must still be there. A missing node (an index outside the path, or
the front or back of an empty one) is undefined. -/
def PySt.give (s : PySt) (x : Option (Nat × Nat)) (parent : List Nat) : Option (PySt × PyRet) :=
  match x with
  | none => none
  | some (g, n) =>
    match s.mem g with
    | none => none
    | some _ => let r := s.castNode g n parent; some (r.1, .objs [r.2])

/-- Does a call remove a node? No call of the builder does, and Python has no access to these
(source/NetlistBuilder.cpp:36-564, bindings/python/pyslang_netlist.cpp:73-236). -/
def NetOp.removes : NetOp → Bool
  | .removeNode _ => true
  | _ => false

/-- One call (bindings/python/pyslang_netlist.cpp:73-355); `none` is undefined behaviour. The graph on
which a query about a node is called plays no part (source/NetlistGraph.cpp:151-256). -/
def PySt.step (regex : Str → Str → Bool) (s : PySt) : PyOp → Option (PySt × PyRet)
  | .newGraph => let r := s.make (.graph {} 0) []; some (r.1, .objs [r.2])
  | .build g ops =>
    match s.graphOf g with
    | none => some (s, .raised)
    | some (ss, b) =>
      if ops.any NetOp.removes then some (s, .raised)
      else
        match ss.net.calls ops with
        | none => none
        | some net => some (s.set g (.graph { ss with net := net } (b + 1)), .none)
  | .query g q =>
    match s.graphOf g with
    | none => some (s, .raised)
    | some (ss, b) =>
      let s1 := s.set g (.graph (if q.indexed then ss.ensureIndex.1 else ss) b)
      let r := s1.castNodes g (q.run regex ss)
      some (r.1, .objs r.2)
  | .cone g q h =>
    match s.graphOf g, s.nodeOf h with
    | some _, some (k, n) =>
      match s.mem k with
      | none => none
      | some ss => let r := s.castNodes k (q.run ss.net n); some (r.1, .objs r.2)
    | _, _ => some (s, .raised)
  | .sensitivity g h =>
    match s.graphOf g, s.nodeOf h with
    | some _, some (k, n) =>
      match s.mem k with
      | none => none
      | some ss =>
        let l := Verif.Model.sensitivity ss.net n
        let r := s.castNodes k (l.map Prod.fst)
        some (r.1, .clocks (r.2.zip (l.map Prod.snd)))
    | _, _ => some (s, .raised)
  | .counts g =>
    match s.graphOf g with
    | none => some (s, .raised)
    | some (ss, _) =>
      some (s, .num ss.net.g.nodes.length ((ss.net.g.nodes.map fun n => (ss.net.g.obj n).outE.length).sum))
  | .iter i =>
    match s.graphOf i, s.pathOf i with
    | some (_, b), _ => let r := s.make (.iter i 0 b) [i]; some (r.1, .objs [r.2])
    | none, some _ => let r := s.make (.pathIter i 0) [i]; some (r.1, .objs [r.2])
    | none, none => some (s, .raised)
  | .next i =>
    if i ∈ s.vars then
      match s.val i with
      | .iter g pos b =>
        match s.val g with
        | .graph ss b' =>
          if g ∈ s.live ∧ b' = b then
            match ss.net.g.nodes[pos]? with
            | none => some (s, .stop)
            | some n => (s.set i (.iter g (pos + 1) b)).give (some (g, n)) [i]
          else none
        | _ => none
      | .pathIter p pos =>
        match s.val p with
        | .path ns =>
          if p ∈ s.live then
            match ns[pos]? with
            | none => some (s, .stop)
            | some x => (s.set i (.pathIter p (pos + 1))).give (some x) [i]
          else none
        | _ => none
      | _ => some (s, .raised)
    else some (s, .raised)
  | .findPath comb a b =>
    match s.nodeOf a, s.nodeOf b with
    | some (g, n), some (k, m) =>
      match s.mem g, s.mem k with
      | some ss, some _ =>
        match (if g ≠ k then some [] else if comb then findComb ss.net n m else Verif.Model.findPath ss.net n m) with
        | none => none
        | some l => let r := s.make (.path (l.map fun x => (g, x))) []; some (r.1, .objs [r.2])
      | _, _ => none
    | _, _ => some (s, .raised)
  | .newPath hs =>
    match hs.mapM s.nodeOf with
    | none => some (s, .raised)
    | some ns => let r := s.make (.path ns) []; some (r.1, .objs [r.2])
  | .len p =>
    match s.pathOf p with
    | none => some (s, .raised)
    | some ns => some (s, .num ns.length 0)
  | .front p =>
    match s.pathOf p with
    | none => some (s, .raised)
    | some ns => s.give ns.head? []
  | .back p =>
    match s.pathOf p with
    | none => some (s, .raised)
    | some ns => s.give ns.getLast? []
  | .item p i =>
    match s.pathOf p with
    | none => some (s, .raised)
    | some ns => s.give ns[i]? []
  | .read h =>
    match s.nodeOf h with
    | none => some (s, .raised)
    | some (g, n) =>
      match s.mem g with
      | none => none
      | some ss => some (s, .data (ss.net.id n) (ss.net.data n) (isDriven ss.net n))
  | .drop i =>
    if i ∈ s.vars then some ({ s with vars := s.vars.erase i }, .none) else some (s, .raised)

/-- A Python program: its calls one after the other (bindings/python/pyslang_netlist.cpp:73-355). -/
def PySt.run (regex : Str → Str → Bool) (s : PySt) : List PyOp → Option PySt
  | [] => some s
  | op :: ops =>
    match s.step regex op with
    | none => none
    | some r => r.1.run regex ops

end Verif.Model

# Formal model of slang-netlist: design

This directory holds a Lean 4 model of the logic in `/repo` (slang-netlist) and machine-checked proofs
of the properties listed in `properties.jsonl`.

## Layout

- `lean/Verif/Model/*.lean`: the model, one file per area. Every definition cites the file and lines
  it models and says where it simplifies.
- `lean/Verif/Spec/*.lean`: specifications written without the model's helper functions
  (reachability, per-bit maps, glob languages, execution paths, positional pairing, ...).
- `lean/Verif/Proofs/*.lean`: invariants and helper lemmas.
- `lean/Verif/Props/*.lean`: the property theorems. Beside them stand `example`s showing a concrete
  case that meets the hypotheses, and witnesses where the code violates the property.
- `lean/Verif/Conform/*.lean`: the model run on designs of the project's own unit tests (see below).
- `scripts/conform`: writes most of `Conform` from the tests in `/repo/tests/unit`.
- `MANIFEST.json`: property id, status, theorem names.
- `seeded/LOG.jsonl`: experiments with wrong programs. Each was an edit of the model in a scratch copy;
  the log names the claim it breaks and the theorems that then failed.

A theorem ending in `_partial` proves its property under conditions stated in its hypotheses; the
English statement in `properties.jsonl` stays in full. Where the code violates a property, a witness
theorem proves the violation on a concrete input, and the disagreement is listed below.

## Trusted base

- Lean's kernel (4.33.0). Each property theorem depends on at most the axioms `propext`,
  `Classical.choice` and `Quot.sound` (checked with `#print axioms` for every theorem in
  `MANIFEST.json`). No axiom is added; no `sorry`, `native_decide` or `bv_decide` is used.
- The reading of the C++ source into Lean. The code was not built or run.
- External code, modelled from its documented behaviour and not verified:
  - slang `ConstantRange` (inclusive, lower = min, upper = max, overlaps/contains);
  - slang `IntervalMap` (entries in ascending order; `find` yields the overlapping ones; `insert`,
    `erase`, `unionWith`);
  - slang's AST, `ValuePath`, and the order in which `AbstractFlowAnalysis` visits statements and copies
    and joins states;
  - slang's `ASTVisitor` in the report tool (enters a symbol without a `handle`; with
    `VisitFlags::Canonical` enters the canonical body of an instance), `lookupName`, `expandIndirectRefs`;
  - `nlohmann::json` (text to value and back), `boost` maps (as maps; concurrent `visit`/`emplace`
    atomic), `std::mutex` (mutual exclusion), `std::from_chars`, `fmt` padding, `std::sort` (any sorting);
  - `BS::thread_pool` (runs every submitted task once; `wait` returns when none is left).
- Concurrency models are step machines under sequential consistency.
- Machine integers are `Int`/`Nat`. Where overflow is undefined or changes the result, the model makes
  it a distinct outcome or the theorem carries a range hypothesis.
- Pointers to nodes, edges and symbols are numbers identifying the object.

## Agreement with the project's tests

The code cannot be run here, so the reading of the source is checked against what the project's unit tests
say about it. Designs of 28 tests that state the DOT text of a netlist are given to the model in
`Conform/Dot.lean`; the model's nodes, numbers, edges and labels are those of the text, in the same order.
Designs of 188 further tests are translated by `scripts/conform` (`Concat`, `Blocks`, `Modules`, `Queries`);
the model answers their checks (paths, combinational paths, drivers, loops, fans, sensitivities, lookups,
coverage of black boxes) as the tests demand. What slang computes is entered: widths, bit ranges, the drivers
of ports, values of constants, unrolled loops. These theorems are evaluations, tests of the model and not
proofs; no claim in `MANIFEST.json` rests on them. The tests of single classes (`Wildcard`, `Utility`, `DirectedGraph`,
`CycleDetector`, `DepthFirstSearch`, `ExternalManager`, `IntervalMap`, `DriverMap`, `VariableTracker`, `TextLocation`,
`BitSlice`, `Serializer`) are translated by hand in `Conform/Units.lean`, and those of interfaces in `Conform/Interfaces.lean`
(the variables behind each use of a modport port are entered). Not covered are tests of `force` and hierarchical references.

## What is modelled

| source | model |
|---|---|
| include/netlist/DirectedGraph.hpp | DirectedGraph (sequential), Locks (mutex protocol) |
| include/netlist/NetlistNode.hpp, NetlistEdge.hpp, DriverBitRange.hpp, NetlistGraph.hpp | NetGraph, Dependency |
| include/netlist/TextLocation.hpp, SymbolReference.hpp | Intern, NetGraph |
| source/DepthFirstSearch.hpp, PathFinder.cpp, CycleDetector.hpp, CombLoops.cpp | Dfs, Queries |
| source/NetlistGraph.cpp | Queries, Lookup |
| include/common/Wildcard.hpp, Utilities.hpp | Wildcard, Table |
| include/netlist/NetlistDot.hpp | Dot |
| source/NetlistSerializer.cpp | Serial |
| tools/driver/driver.cpp (query part) | Cli, RangeArg |
| tools/driver/driver.cpp (main function, path reports in both modes) | Driver |
| bindings/python/pyslang_netlist.cpp, include/netlist/NetlistPath.hpp | Python |
| source/ExternalManager.hpp, IntervalMapUtils.hpp, DriverMap.hpp, ValueTracker.* | External, Interval, ValueTracker |
| source/CutRegistry.hpp, VariableTracker.hpp, PortConnectionHandler.cpp | Cuts, PortSlice |
| source/BitSlice*.hpp/.cpp, NodeFactory.cpp | BitSlice, Sensitivity |
| source/DataFlowAnalysis.* | Dataflow, Fork, Loop, Jump, Nested, BitSlice, Elab (from expressions to what the analysis records) |
| source/NetlistBuilder.cpp (dependencies, drivers, sensitivity, reads) | Dependency, Sensitivity, Dataflow |
| source/PendingRvalueQueue.cpp, BuildPipeline.cpp | Pending, Pipeline, Build |
| source/NetlistBuilder.cpp (`toSymbolRef` and its cache, `toTextLocation`) | RefCache |
| Phase 1: source/NetlistBuilder.cpp (`handle` overloads), PortConnectionHandler.cpp | Traverse |
| source/CanonicalBodyResolver.cpp | Canonical |
| source/NetlistBuilder.cpp (`resolveInterfaceRef`) | Iface |
| tools/report/report.cpp, include/report/*.hpp | Reporter |
| source/BuildPipeline.cpp (`recordTaskStats`) | Profile |
| include/netlist/VisitAll.hpp | VisitAll |

Not modelled: slang's elaboration and analysis; function calls in the data flow
analysis, apart from the assignments to `output` arguments that slang's visitor meets (Nested); pybind11 itself; compilation options, statistics and error messages of the
command-line tools; the rendering of diagnostics; `Debug.hpp`; time measurement; memory consumption and call-stack
depth; unsynchronised reads of shared containers.


## Properties

Each entry gives the modules under `lean/Verif/Model`, the method, the status in `MANIFEST.json` and
what limits it. The theorem names are in `MANIFEST.json`.

### C01 In-edges mirror out-edges

- Model: DirectedGraph, NetGraph. Status: proved.
- Refinement: `DGraph` (per-node ordered out/in lists, lazy index) simulates a plain edge list `AbsGraph` over every history of calls; the mirror property is read off the abstract graph.
- sequential histories; concurrent insertion is C04/C05

### C02 Edge lookup and de-duplication agree with a plain scan

- Model: DirectedGraph. Status: proved.
- The index invariant (index = first match of the out-list once built) gives equality of indexed lookup with a linear scan; idempotence and `removeEdge` follow.

### C03 Removing a node removes exactly its incident edges

- Model: DirectedGraph. Status: proved.
- Same refinement; removal on the abstract graph is a filter.

### C04 Concurrent edge insertion never deadlocks

- Model: Locks. Status: partial.
- Step machine of the mutex protocol. Progress and a step bound for every schedule when the requested pairs are acyclic (a lock order exists); the AB-BA deadlock is a reachable state (witness).
- Progress and termination when the requested pairs are acyclic; reciprocal insertions can deadlock (witness), contrary to the developer guide. The tasks of the parallel Phase 2 make no such insertions (C96), so this concerns the parallel resolution of pending reads.

### C05 Concurrent de-duplicated insertion is linearizable

- Model: Locks. Status: proved.
- Invariant over all schedules: the log of finished calls linearises to `addEdge` on the sequential graph; each distinct target recorded exactly once.
- Also covers addNewEdge; parallel_edges_dangle shows that the in-list order, which the claim does not fix, matters for a later removeEdge.

### C06 A reported path is a genuine simple path

- Model: Dfs, Queries. Status: proved.
- Stack machine of the depth-first search; visitor parent map invariant; the path read back is a simple walk of enabled edges.
- A returned path is a simple walk over enabled edges from start to end.

### C07 A path is reported whenever one exists

- Model: Dfs, Queries. Status: partial.
- Completeness from the visited-set invariant; start = end is shown to return nothing.
- Complete for distinct endpoints; a path from a node back to itself is never returned (negation proved).

### C08 Combinational path queries

- Model: Dfs, Queries. Status: proved.
- As C06/C07 with the combinational edge predicate.

### C09 Combinational fan-out is exact

- Model: Dfs, Queries. Status: proved.
- Visited set = reachability in the spec `Reachable`, no duplicates.

### C10 Combinational fan-in is exact and dual to fan-out

- Model: Dfs, Queries. Status: proved.
- Backward instance of C09; duality by reversing walks.
- Duality holds between non-register nodes; the register case differs by definition and is shown.

### C11 Reported combinational loops are genuine

- Model: Dfs, Queries. Status: proved.
- The visitor stack equals the path to the current node; a back edge closes a simple cycle.

### C12 Combinational loop detection is complete

- Model: Dfs, Queries. Status: partial.
- Every node on a cycle lies in some reported loop; a graph with a missed cycle is a witness.
- Cyclic components are detected, but not every simple cycle is listed (negation proved).

### C13 Loop report is canonical

- Model: Queries. Status: proved.
- Sorting, rotation and de-duplication lemmas; uniqueness of IDs within one build, collision after a second build (witness).

### C14 Constant-driver report means tied off

- Model: Queries. Status: partial.
- Exactness of the list relative to fan-in; registers and disabled edges are ignored (witnesses).
- The list is exact relative to the fan-in the code computes; that fan-in ignores registers and disabled edges, shown by two concrete graphs.

### C15 Sensitivity is exact

- Model: Queries. Status: proved.
- Set equality by unfolding the two passes over fan-out.

### C16 Name lookups are exact

- Model: Lookup. Status: partial.
- The index equals a scan while the node list is unchanged since it was built; staleness witness.
- Exact while the index is current; the index is never invalidated (negation proved).

### C17 Driver queries are bit-exact

- Model: Lookup, Interval. Status: proved.
- Per-bit characterisation of the sorted, clipped union.

### C18 Black-box coverage classification

- Model: Lookup, Wildcard. Status: proved.
- Decision logic over all box lists; permutation invariance.

### C19 Traversal terminates, visiting each reachable node once

- Model: Dfs. Status: proved.
- Lexicographic termination measure of the step machine; event-sequence invariants.
- call-stack depth of the recursive run() is not modelled

### C20 Glob matching follows the documented syntax

- Model: Wildcard. Status: proved.
- Equivalence with an inductively defined glob language.
- The documented pattern top....leaf also matches names where the dots are absent (shown).

### C21 Glob matching is memory safe and terminates

- Model: Wildcard. Status: proved.
- Over-reads are a distinct outcome, shown unreachable; termination by a measure on both suffixes.

### C22 Scope filtering is segment-aware

- Model: Wildcard. Status: proved.
- Equality with prefix-plus-dot specification.

### C23 Signal-range arguments round-trip

- Model: RangeArg. Status: proved.
- Parser equals a declarative description; print-then-parse round trip.

### C24 Tables are aligned and lossless

- Model: Table. Status: proved.
- Column offset lemmas over all rows.

### C25 DOT export renders exactly the induced subgraph

- Model: Dot. Status: proved.
- The output is the concatenation of exactly the specified lines.
- Names are not escaped in labels (witness shown); defined unless a selected node has no kind.

### C26 Bit slices tile the expression

- Model: BitSlice. Status: partial.
- Structural induction over an expression AST with width rules.
- Proved for all expressions meeting the language width rules; a dynamic select of a signal with cut hints breaks the width (witness).

### C27 Bit-aligned assignment is bit-exact

- Model: BitSlice, Dataflow consumers. Status: partial.
- Per-bit denotation `routes` of the language semantics; soundness for static selects, exactness without narrowing.
- Sound for static selects without sign extension, exact when further nothing is narrowed; witnesses for what is excluded.

### C28 Driver map tracks each bit exactly

- Model: ValueTracker, External, Interval. Status: partial.
- Refinement of driver maps to a per-bit function over histories. Invariant: the bits of an interval have one and the same last recording, and the interval lies inside it (`Tracks.sub`), so a recording that splits no earlier one in two (`NeverSplits`) meets no interval that extends it on both sides; by a loop invariant for the intervals found (`addLoop_ok`) no two intervals ever share a list.
- Exact per bit for every history in which no range is recorded strictly inside an earlier range of the same signal whose bits there and next to it were not recorded again in between (a default followed by its parts from one end to the other is fine, parts_fine). Otherwise the property is false of the code (witness proved): both halves of a split entry share one driver list.

### C29 Driver lists are never used after being freed

- Model: ValueTracker, External. Status: partial.
- The same invariant excludes released handles; use-after-release is a distinct outcome reached in the witnesses.
- No released list is touched in histories as in C28 (every call returns ok). False in general: witnesses of use after release and of confusion proved.

### C30 Merging drivers is order independent

- Model: ValueTracker. Status: partial.
- Corollary of C28: the per-bit function of merges is commutative.
- Proved for two orders that are both as in C28, in particular for all orders if no range lies strictly inside another; false otherwise (witness proved). The same for merges made by several threads (concurrent_merges_exact_partial, on the lock-level model of C95).

### C31 Interval difference is set difference

- Model: Interval. Status: partial.
- Exact characterisation of the loop result, and its comparison with set difference.
- Exact characterisation of the result proved. It equals set difference unless two touching intervals of the second map meet at the last point of an interval of the first; then that point is wrongly kept (witness proved).

### C32 Every bit read is linked to its definitions

- Model: Dataflow. Status: partial.
- Specification of `handleRvalue` on any state reached by executing a block whose ranges meet `Plain`.
- Holds for reads made for a node whose range lines up with the earlier writes; partially overlapping definitions are lost (witness). Earlier means earlier in the order of the analysis, which visits the left-hand side of an assignment first (witness).

### C33 Every non-blocking assignment that can execute drives its register

- Model: Dataflow. Status: partial.
- Path semantics `Runs`/`LastAt`; the list of non-blocking writes is replayed after the block.
- Holds when all non-blocking writes of the bit belong to one assignment; with assignments in two branches only the textually last is recorded (witness), and unreachable bit-aligned ones are recorded (witness).

### C34 Reaching definitions for blocking assignments

- Model: Dataflow. Status: partial.
- Induction over statements: at every point the driver map of a bit is the set of last writes over all runs.
- Exact for blocks whose written ranges have at most one boundary strictly inside each; otherwise a split interval shares its driver list and gets wrong drivers (witness).

### C35 Adding dependencies never loses annotations

- Model: Dependency, NetGraph. Status: partial.
- Per-bit annotation of a pair after any list of requests.
- Exact and order-independent when a pair of nodes is asked for one signal; soundness and connectivity in general; a later signal overwrites the annotation of an earlier one on the same pair.

### C36 Edge-triggered blocks are sequential

- Model: Sensitivity, Dataflow driver maps. Status: partial.
- Decision logic for event lists, then exact description of the nodes and edges `mergeDrivers` adds.
- Holds when every edge-triggered event names a plain signal. Events on selects or expressions are dropped, and a block with only such events is treated as combinational (witnesses).

### C37 Cut points accumulate exactly

- Model: Cuts. Status: proved.
- Induction over calls.
- For every sequence of addCuts calls.

### C38 Variable nodes are found by their exact range

- Model: Cuts. Status: partial.
- Ordered-list lookup lemmas.
- Exact for ascending ranges with disjoint or equal registrations; a descending range is not found (witness).

### C39 File and symbol interning is consistent under concurrency

- Model: Intern. Status: proved.
- Invariant of the double-checked locking protocol over all schedules; progress.
- For all schedules of a sequentially consistent step machine; file indices for fewer than 2^32 names. Unlocked readers of the deque are not modelled.

### C40 Save then load preserves the netlist

- Model: Serial. Status: partial.
- Round trip on JSON values.
- Full round trip for graphs without parallel edges and with distinct IDs; parallel edges are merged by load (witness).

### C41 Loading rejects malformed files

- Model: Serial. Status: partial.
- `load` succeeds iff a declarative well-formedness predicate holds.
- Acceptance is characterised exactly; the version test wraps, so some other versions are accepted (witness). Edges connect the named IDs when IDs are distinct.

### C42 Parallel analysis equals sequential analysis

- Model: Pipeline. Status: proved.
- Step machine of main thread and workers; invariant over all schedules; progress and a bound on the number of steps.
- For all schedules of a sequentially consistent step machine. Hypothesis: the reads a block queues do not depend on what other blocks do (the analysis of a block consults the shared state only for variable nodes, which never decides what is queued); a witness shows it is needed. When several blocks throw, which exception is reported depends on the schedule (witness).

### C43 Parallel resolution equals sequential resolution

- Model: Pending, Dependency. Status: proved.
- The runs partition the sorted queue; every interleaving of the groups joins the same pairs.
- Dependencies are inserted atomically (see C04 and C05 for the locking). Beyond the claim: the annotations are those of the sorted queue, and may differ from sequential ones when a pair is joined by several signals.

### C44 Pending reads connect to exactly the overlapping drivers

- Model: Pending, ValueTracker, Cuts. Status: partial.
- Exact requests of one pending read; composition with C28.
- Exact relative to the driver map and variable table; stated from the recordings for histories on which the map is exact and ascending ranges.

### C45 Port nodes tile the driven range at cut points

- Model: Cuts. Status: proved.
- Induction over sorted cuts.

### C46 Handle-based storage behaves like a partial map

- Model: External. Status: proved.
- Refinement to a partial map with a free list.
- For histories of fewer than 2^32 calls.

### C47 Instance redirection is consistent

- Model: Canonical. Status: partial.
- Cache invariant: every entry is the positional counterpart, and an anchor with any cached body below it has all its pairs cached.
- Holds where at most one enclosing body is marked as a copy, which the resolver documents as a property of slang; otherwise the answer depends on earlier queries (witness).

### C48 Constant slices carry the right value

- Model: BitSlice. Status: proved.
- Arithmetic of shift and mask.

### C49 Names of node kinds, directions and edge kinds round-trip

- Model: Serial. Status: proved.
- Exhaustive finite enumerations (total over the enum types).

### C50 CLI endpoints alias fan queries

- Model: Cli. Status: partial.
- Decision logic over all option records.
- Priority and aliasing are exact; an explicit fan-in request loses to a lone start (negation proved).

### C51 Listing reports contain exactly the requested nodes

- Model: Cli, Table. Status: proved.
- Exact list of rows per report.
- Relative to the regular-expression library for the regex search.

### C52 Path and loop reports describe the path that was found

- Model: Cli, Queries. Status: partial.
- Exact text of path and loop reports; undefined outcome for inout/ref ports.
- Reports by diagnostics (netlists built from sources) say the same as reports by text (diag_report_exact; the rendering of a diagnostic is slang's). An inout or ref port on the path makes the report undefined, and with parallel edges the printed value may belong to an unused edge (both proved).

### C53 Bit-aligned port connections are bit-exact

- Model: PortSlice, BitSlice. Status: partial.
- Composition of C27 and C45.
- Same exclusions as C27 (sign extension, narrowing, dynamic selects).

### C54 Cuts recorded from an actual are its interior slice boundaries

- Model: PortSlice, BitSlice. Status: partial.
- Structural induction comparing cut collection with decomposition.
- Exact without conditionals, folded conversions and zero-width parts; witnesses for the exclusions.

### C55 Clocking edge kinds of dependencies are kept

- Model: Dependency. Status: partial.
- As C35 for edge kinds.
- Holds when a pair of nodes is asked for one edge kind; otherwise the last kind replaces the first.

### C56 A read of a register depends on the register

- Model: Sensitivity, Pending. Status: partial.
- Resolution after `createState`.
- A read of exactly the registered range is connected; for every other range no dependency arises (general theorem and witness).

### C57 Values written by an edge-triggered block leave it only through its registers

- Model: Sensitivity. Status: partial.
- Exact list of edges added per driven range.
- Holds unless a driven symbol is a modport port or a variable with a node for the driven range; then the driver is connected to the variable node directly (witnesses).

### C58 Output ports are connected to what drives their internal signal

- Model: Sensitivity. Status: partial.
- `hookupOutputPort` against the registered port nodes.
- Connected when one port node holds the whole driven range; a range straddling two port nodes is connected to neither (witness).

### C59 Writes to interface signals reach the interface variable's node

- Model: Sensitivity. Status: proved.
- Every driver of a written range yields the requested edge.
- Relative to the result of resolveInterfaceRef, which is C79 (composed in modport_write_connected). Which node is hit when several are registered for the range is not fixed.

### C60 Conditionals control the assignments in their branches

- Model: Dataflow. Status: partial.
- Induction over the leading assignments of a branch.
- Holds for the leading assignments of each branch; later ones get no edge (witness), and an assignment after the conditional may get one (witness).

### C61 Branch ends meet in a merge node

- Model: Dataflow. Status: partial.
- Join of two reachable states with nodes.
- For blocks whose written ranges have at most one boundary strictly inside each.

### C62 Data dependences between blocks are edges of the built graph

- Model: Build (with Dataflow, Sensitivity, Pending). Status: partial.
- The per-block theorems (C33, C34, C32, C36) composed along the list of blocks by an invariant on the builder (`BInv`) and a relation between the states before and after some blocks (`Done`), followed by the resolution theorem of C43. The specification (`Leaves`, `Use`) speaks of control paths and writes only.
- For designs whose written ranges have at most one boundary strictly inside each and whose blocks some path leads through. Reads of a register, in its own block and by port connections as well, are covered for the exact range of the register. Assignments are identified by source location. Nothing is claimed about the absence of other edges.

### C63 Phase 1 meets every instance, port and block once and treats black boxes as opaque

- Model: Traverse (with Cuts, PortSlice, Wildcard). Status: partial.
- The recursion over members is shown equal to a walk over a flat list of events (`visitAll_steps`), whose definition in Spec/Traverse knows no tables. Each event is shown to succeed and to have a stated effect; effects compose along the list (`StepsEff`). Black boxes follow because the events do not mention the inside.
- Multi-port connections, which end in SLANG_UNREACHABLE (witness), are excluded. Cut points are covered for actuals made of selects and concatenations.

### C64 Dependences through the module hierarchy are paths of the built graph

- Model: Traverse, Build (with PortSlice, Sensitivity, Pending). Status: partial.
- The effect of each port and connection is carried to the end of Phase 1 (Proofs/Hier), the driver table is computed from the recordings (`start_at`), the blocks are composed as in C62, and the resolution turns drivers and reads into edges. Chains of instances are an induction on `Up` and `Down`.
- For designs as in C62. Inputs: signals that are not modport ports and have no node of their own. Outputs: the actual is a select or concatenation, no input port supplies the bit, and one port node holds the driven range (see C58). Nothing is claimed about the absence of other paths.

### C65 The built graph has no edge without a reason in the design

- Model: Traverse, Build, Dataflow, Sensitivity, Pending, Dependency. Status: proved.
- The specification (Spec/Sound: `Offers`, `Wants`, `Justified`, `Blank`) describes nodes by their data and reads everything off the events of the design. An invariant "every edge satisfies J" (`Just`) is kept by each call that adds edges; the driver maps are abstracted by a discipline (`Disc`) on which node may be recorded for which signal and bit, kept through the data flow analysis, the merging of drivers, Phase 1 and the resolution of reads. C65 is the instance where the discipline ignores bits, which needs no assumption on ranges.
- For every design whose netlist is built without a fault. A statement that reads without an assignment or condition of its own counts as a read by the assignment before it (witness bare_read_feeds_assignment).

### C66 Every bit an edge carries has a reason in the design

- Model: Traverse, Build, Dataflow, Sensitivity, Pending, Dependency. Status: partial.
- The proof of C65 with the discipline that follows bits (`fine`), which is the exactness of the driver maps on aligned ranges (C28).
- For designs whose written ranges have at most one boundary strictly inside each and whose blocks some path leads through. An edge inside one block carries the whole range read even if the source writes only part of it (witness). Connections that are not resolved bit by bit (conditionals, sign extension, dynamic selects) tie all their bits.

### C67 The answers of queries on a built netlist hold in the design

- Model: Query, Loops, Traverse, Build. Status: proved.
- The query theorems on arbitrary netlists (C06 to C11, C15) composed with C65: every edge is enabled, so edges are steps of the queries, and every step is a dependence of the design.
- For every design whose netlist is built without a fault; the dependences are those of C65 (signal by signal).

### C68 The nodes of the netlist are exactly those of the design

- Model: Traverse, Build, Dataflow. Status: proved.
- Spec/Nodes lists the nodes of a statement by recursion on the text. Each step of the analysis is shown to append a known list of nodes (`Lays`), joins and the end of a block to append merges and registers only (`Builds`), and the resolution of reads to append none (`Adds`). The nodes before the blocks are those of C63.
- For every design whose netlist is built without a fault. How many port and register nodes there are is the subject of C58 and C62. nodes_exact_bits_partial adds, for designs as in C66, that registers have only bits written last on some path. Value and width of constants connected to ports are not stated.

### C69 Combinational cycles of the design are reported

- Model: Traverse, Build, Dataflow, Loops. Status: partial.
- `Passes` (Spec/Cycles) says without a graph when a value passes on. Every such step is shown to be a chain of edges that avoids registers (`Hop`), from the completeness theorems of C62 and C64 and the control edges of C35. Two instances of a module put nodes with the same data into the netlist; the circle is therefore one of a marked design, in which every statement of every instance has a place of its own and the nodes are unique (C68). The netlist of the design is that of the marked one with the places moved back (C70). A circle of steps is a circle of edges, which the cycle search covers (C11).
- For designs of C64, with instances of a module told apart (a marked design, which always exists by C70). A loop through a condition is missed when its assignment is not the first one under the condition (witness guarded_loop_missed). Dependences the builder loses (C62, C64 partial) are not counted as passing a value.

### C70 Places in the text only label the nodes

- Model: Traverse, Build, Dataflow, Sensitivity, Pending, Query, Loops. Status: proved.
- Every function of the builder is shown to commute with moving places (Proofs/Relabel, by unfolding and, for statements and members, induction); nothing is assumed of the design, and faults are part of the equation. Markings (Proofs/Marking) are built by numbering the places of a design from left to right.
- For every design, also those whose build faults. The places of constants, ports and signals are not moved.

### C71 Without a path there is no influence

- Model: Traverse, Build, Dataflow, Query, Loops. Status: partial.
- Spec/Meaning gives statements a run on values of bits, with arbitrary functions for expressions and conditions, and says what stable states are. For one block, an invariant along the run (`Inv`, `inv_run` in Proofs/Meaning) relates every differing bit to the last write and to a read that differs. Across blocks and ports the argument follows differing bits backwards along `Passes` (C69); this ends because the absence of reported loops makes `Passes` acyclic (`acyclic_induction`). The path of the specification is then a path of the netlist (`touched_node`), and the query answer is that of C67.
- For designs of C64 whose combinational blocks are latch-free blocking assignments under conditions with at most one assignment or condition per branch, whose reads line up with the writes, and whose output connections are resolved bit by bit. Outside, influences are lost: of a condition on the second assignment of a branch (witness influence_lost_second), and between the segments of one assignment (witness influence_lost_swap).

### C72 Without a path there is no influence, from the text

- Model: Elab, BitSlice, Traverse, Build, Dataflow, Query, Loops. Status: partial.
- Model/Elab makes what the data flow analysis sees (`Dataflow`) from expressions (`BitSlice`). Spec/Source gives the text a run on values: `Denotes` says which values an expression has, bit by bit. `denotes_routes` shows by induction on expressions that a bit depends only on the bits the language routes to it; with C25 (the segments route the same bits) the run of the text gives a meaning, in the sense of C71, to what the analysis sees (`text_meaning`). A text node that stands for several segments is told apart by spots, which C70 removes again.
- For designs of C71, with static selects in aligned assignments and on left sides. Sign extension loses an influence: the bits above the operand have no source in the graph (witness influence_lost_sign).

### C73 The analysis can look at every text

- Model: Elab, BitSlice, Traverse, Build. Status: partial.
- The sources of a segment are the origins of its bits (C25, `assign_origins`); origins of an expression that selects from signals are never without a symbol and never ports (`orig_rooted`, induction on expressions). The rest is the totality of the build (C64).
- For assignments that select from signals. A select from something without a symbol, such as the result of a call, dereferences a null pointer in the aligned walk (witness rootless_select).

### C74 An assignment taken as a whole writes its targets and reads the rest

- Model: Elab. Status: proved.
- Spec/Source tells targets and indices of a left side by recursion on the expression; the notes are compared with them by induction.
- Left sides of force statements are noted as read by this walk and ignored by the aligned one (witness force_reads_target).

### C75 Scope arguments of the report tool select what they name

- Model: Reporter, Wildcard. Status: partial.
- The walk over the tree is shown equal to a fold over the list of opened symbols (`collectGlobs_eq`), whose effect on the set of seen symbols is an invariant (`take_fold`); arguments compose by induction (`resolve_all`). The meaning of patterns is C20.
- The selection is exact. A pattern that matches only symbols selected by earlier arguments is rejected as matching nothing (witness covered_pattern_rejected).

### C76 Reports list every requested declaration once

- Model: Reporter. Status: partial.
- The items of a visit are characterised by chains of members (`mem_visitSym`); they form a sublist of the preorder of the tree (`visitSym_sub`), and two scopes that share a declaration lie one in the other (`nested_of_shared`).
- For scopes that are not nested and designs in which no instance is elaborated in the body of another. Nested scopes repeat rows, and an instance that shares a body is reported with the declarations of the other instance (witnesses).

### C77 Table and JSON reports say the same

- Model: Reporter, Table, Serial. Status: proved.
- Spec/Reporter reads rows off JSON objects by key (`rowsSaying`); equality with the rows written by the table is shown per kind of declaration.

### C78 The report tool makes the report that was asked for

- Model: Reporter. Status: partial.
- Case analysis of the options.
- Holds when exactly one action or none is given. Several actions are accepted and all but one ignored, an action switched off is made, and the format is not checked for --ast-json (witnesses).

### C79 References through modports resolve to interface variables

- Model: Iface, Sensitivity. Status: partial.
- Spec/Iface describes the chains (`ChainEnd`) and the order (`Gathers`). The recursion is bounded by a depth; results are monotone in it, and for accessible references a depth exists. Composed with C59 for writes.
- Relative to the expansion of indirect references by slang. Ends if no chain of connections is endless; a reference whose expansion delivers itself recurses without end (self_expanding_reference).

### C80 Task statistics describe the tasks

- Model: Profile. Status: proved.
- The sorted list is a permutation of the times; counting in a sorted list gives the median property.
- With exact arithmetic; the code rounds to doubles.

### C81 No path, no influence over time

- Model: Traverse, Build, Dataflow, Query, Loops. Status: partial.
- Spec/Clock adds to the runs of C71 what non-blocking assignments schedule (`later`) and the values from one clock edge to the next (`Unrolls`). By induction on time a differing register bit is traced to a differing bit that an edge-triggered block reads (Proofs/Clock: `register_reached`), and within one time along combinational dependences as in C71 (`assigned_reached`). Each step is an edge or a chain of edges: through a register by `register_path`, which needs that a read of the register in any block, its own included, is entered from the register node (C62). A register connected to an input port is read as a whole if it is an operand of the actual that neither drivers of the port nor cuts divide (`TakesAll`); `operand_segment` (Proofs/Operand) shows that the alignment then yields one segment for it, and `connect_whole` that its range is pending as a whole. Props/Enter has a design of this kind.
- For designs of C71 whose edge-triggered blocks consist of non-blocking assignments under conditions, write and read registers as a whole, also where these are connected to input ports of instances (a part of a register is not connected to it, see C56). A register loaded in several alternatives keeps only the textually last assignment, so influences of the others are lost (witness influence_lost_first); the theorems allow further assignments that read nothing, such as resets. Effects on when a block fires are the subject of C90.

### C82 A loaded netlist gives the reports of the saved one

- Model: Serial, Cli, Lookup, Dot, Queries, Traverse, Build. Status: partial.
- Proofs/Grown shows, function by function, that the whole builder only adds nodes and edges and annotates edges without disabling them, so that any property kept by these steps holds of a built netlist (`keeps_netlist`). It gives that nodes are numbered from zero, IDs from one, and that edges are enabled and named by symbols of the design (`netlist_sown`), hence that the netlist can be saved; a loaded netlist has the same numbering (`load_tidy`). With C40 the loaded netlist has the nodes of the saved one and, node by node, the same out-edges in order. Forward traversals then run in lockstep (`dfsRun_map`), which gives equal texts; for backward ones the sets are equal by the exactness theorems of C06 to C15.
- All reports, if no two edges of the built netlist join the same two nodes; in general, the reports on registers, names, fans and constant drivers, and the existence of paths and cycles. With parallel edges the driver report changes (witness reload_loses_driver). Hypotheses: numbers fit the machine types, symbols are determined by their path, texts of constants are read back unchanged.

### C83 A run of the tool does what its options ask

- Model: Driver, Cli, Serial. Status: partial.
- Model/Driver follows the main function; everything outside the tool is a record (`World`). Spec/Driver says which answer belongs to which options. `run_success`, `run_failure` and `run_status` are case analyses over the branches, with induction for the loops printed one by one (`loops_shape`). `save_load_run_partial` composes C82 with the two ways of telling a path: the lines of the diagnostics are those of the text (`pathIn_said`, by induction on the path).
- Status 0 comes with exactly the answer chosen, any other status with none (a report on loops may be cut short). Two runs over a saved file answer like a single run if no two edges of the netlist join the same two nodes. Disagreement: an option can be ignored although the status is 0 (witness run_skips). slang itself is a parameter: whether it accepts options, sources and design, and which nodes have a source location.

### C84 The symbol-reference cache changes nothing

- Model: RefCache, Serial. Status: proved.
- Spec/RefCache runs the same requests without a cache. Invariant over the interleaving (`run_plain`): between two clearings a thread asks for one graph only, and what it has cached is what the table of that graph says; jobs have this shape by the places where the code clears (`jobs_stretches`).
- All interleavings of all threads, with interning as one atomic step (C39 gives its steps) and for builds started by NetlistGraph::build, which runs both halves of a build without another build between them on the same thread.

### C85 Python programs use the netlist safely and get the library's answers

- Model: Python, Lookup, Queries. Status: partial.
- Model/Python keeps all objects ever made, what each keeps alive and what the program holds; freed memory is an object that is no longer alive. Spec/Python defines liveness inductively and which graphs a call looks at. Invariant over all programs (`PyOk`, Proofs/Python): objects keep older objects only (so the computed live set is the inductive one, `mem_live`), handles and path entries name nodes of their graph (nodes are never removed, `calls_keep_nodes`; all queries give nodes of the netlist), live handles of a node are unique. Later states keep the index of a graph once it is built, which gives `py_names_frozen`. The answers follow from the exactness theorems of C06 to C16.
- Exactly which calls are defined after any program; what each call gives. The claim itself is false: handles from queries and paths do not keep their graph (py_query_unprotected, witness py_lookup_dangles), a handle from an iteration does unless a query gave it first (py_iterated_safe, py_iteration_dangles), and paths do not check indices (py_misuse). The first query by name freezes the names of its graph (py_names_frozen, witness py_names_stale). pybind11 is modelled by its documented behaviour; several Python threads and a graph outliving its compilation are not modelled.

### C86 The driver, constant, sensitivity and DOT reports say exactly what was asked

- Model: Cli, Dot, Lookup, Queries. Status: partial.
- Props/Reports spells out the words of each row independently of the model (`LocatedAt`, `Described`, `EdgeWord`, `Draws`) and relates rows to query results one by one (`Rowwise`). Inductions over the row loops; the sets listed come from C12 to C16, the drawing from C25, the path from C06. `description_identifies` compares the first letters of the descriptions. Unknown names are errors; for a location outside the file table see C51.
- Driver, sensitivity and DOT reports are exact, rows spelt out. Partial because the constant report inherits the failures of C14: nodes fed by registers, or by ports whose in-edges are disabled, are reported as tied off (negations proved).

### C87 Parallel blocks keep every definition that may reach their end

- Model: Fork, Dataflow. Status: partial.
- Spec/Fork gives interleavings (`Shuffle`) and the writes of one execution (`ForkRuns`), without states. `meetState_ok` reduces meeting to joining (C34) by adjusting the reachability; an induction over the branches gives the drivers as those along one branch each (`fork_drivers`); `fork_last` shows that the last write of an interleaving is the last one along some branch. The order in which branches are visited is slang's and is an assumption of the model.
- The drivers after the block are exactly those that are last on a path through one branch alone, which includes the last one of every interleaving; for ranges as in C34. Reads in a branch miss definitions of the other branches (witness), and definitions that every interleaving overwrites are kept (witness).

### C88 Assignments in loops are tracked

- Model: Loop, Dataflow. Status: partial.
- Both kinds of loops are statements of Dataflow, chosen so that the four designs of tests/unit/LoopTests.cpp give the expected netlists (checked in Conform); slang, which decides the order of the visit, is not part of the repository. Spec/Loop says how loops run (`RunsInOrder`, `Repeats`), without states. The paths of the statements are related to these runs by induction over the iterations, and C34 and the theorem on uses behind C62 (`use_ok`) do the rest.
- For ranges as in C34. After an unrolled loop the drivers are exactly those of the run of all iterations and those of a run of none, so overwritten definitions are kept (witness). A loop that is not unrolled leaves the drivers as they were: its blocking assignments are lost and nothing is carried between its runs (witnesses; the project describes the first as a known limitation).

### C89 The AST is visited before it is frozen

- Model: VisitAll. Status: partial.
- Model/VisitAll is a tree of the kinds of elements that the visitors tell apart, with the visitor of VisitAll.hpp, the traversal that defers blocks, and what the analysis of a block looks at. Spec/VisitAll says which elements lie below which (`Through`), without visitors. Each visitor is shown to reach exactly the elements of its specification by induction over the tree; every way into a deferred block and down to something analysed is open to the first visitor. What slang constructs lazily at each element is not modelled.
- Whatever the analysis of a deferred block looks at has been visited, for all ASTs; exactly which elements are visited, once each, and what is counted. The descriptions in the code and in the bindings also say that the whole AST is visited, which is false: initializers of values and of static variables and modules outside the design are left out (witness).

### C90 No path, no influence on when registers load

- Model: Traverse, Build, Dataflow, Query, Loops. Status: partial.
- Spec/Tick adds registers to the places among which influences are followed (`Point`, `Moves`) and lets firing depend on the history of the event signals (`Triggers`). By strong induction on time (Proofs/Tick: `register_touched`), a register bit differs because the block fired in both runs and scheduled different values, or fired in one only; then an event signal has differed at some earlier time, and this difference is traced like that of a read. Props/Tick shows backwards (`moves_back`) that every step is a path: the pending read that stands for an event (C63) resolves to the drivers of the signal, or to its register node if the ranges agree.
- For designs of C81 in which a register that is a clock is written as a whole. If it is written in part, the edge from it into the registers it clocks is missing and the influence is lost (witness clock_influence_lost, where all other hypotheses hold). Events are names of signals, since edges of selections are ignored (C36).

### C91 No path, no influence over time, from the text

- Model: Elab, Align, Traverse, Build, Dataflow, Query, Loops. Status: partial.
- Spec/TextClock runs the text over time: `laterText` schedules, for each bit on the left of a non-blocking assignment, the bit of the right side (`Denotes`), and firing depends on the history of the event signals. Proofs/TextClock shows by induction on statements that what the analysis sees of a block schedules the same (`stmt_later`): the segments of an assignment write different bits or the last one counts, and all read the values before. Blocks that write are told apart by the places of their assignments (`seen_once`), so firing carries over, and C90 applies to the design seen with spots.
- C90 from the text of the design (as C72 is C71 from the text). Left sides and aligned right sides select statically; the designs are those of C90.

### C92 The exit status of the reporting tool says whether the report was made

- Model: Reporter. Status: proved.
- Model/Reporter has the main function with everything outside the tool as a record (`RptWorld`). Props/ReportRun says when a run succeeds and what it writes (`RptDone`); case analysis over the branches.
- slang itself is a parameter: whether it accepts options, sources, design and analysis, and what a name looks up. What a report contains is C76 to C78.

### C93 The analysis of a block is fixed by the block

- Model: Script, Build, Dataflow. Status: proved.
- Model/Script has the operations a block can do on what blocks share, with the block's own nodes called by the order of their creation. Proofs/ScriptSim relates a run of the analysis on a symbolic builder to a run on any builder, function by function (`Sim`: same control flow, nodes corresponding by position), and collects the operations; Proofs/Script adds the merging of the drivers. `ds_script` is the list of a flip-flop. The witness for the order is evaluated.
- The list is found from the block alone and works for all builders, unconditionally. order_changes_netlist is the witness that the lookups make the result depend on the order of the blocks.

### C94 Analysing the blocks in parallel tasks gives the same netlist

- Model: Script, Pending, Build. Status: partial.
- Model/Script adds `Bld.tasks`, which does operations of several blocks in a given order with the pending reads in a buffer per task, and `Bld.drain`. Proofs/Schedule has an invariant (`MixInv`) that relates the mixed run to one run per block from the state before all blocks: each block does in the mixed run what it does alone, since lookups of variable nodes and driver maps give it the same nodes; the graph is the union. Two mixed runs of the same scripts are hence matched node by node (`Mated`), and resolution keeps the match. Proofs/ScheduleTasks moves the queue into the buffers and back. Faults: if one order succeeds then every other does. `Separate` is checked for a design with a flip-flop and a combinational block, and the theorems are applied to an interleaving of their operations. Proofs/ScheduleDesign describes the operations of a block by its writes (`Does`: every driven range lies in the range of a write of the block, driven ranges of one block are apart, and so on), so that `Separate` follows from `OneWriter`, which is said of the statements of the blocks alone. Proofs/VarOrder shows that Phase 1 keeps the entries of the variable tracker in ascending order; Props/ScheduleNetlist derives `Begun` for every elaborated design, so that the theorems speak of `netlist E ord top`, and applies them to the design with two levels of instances of C64.
- Proved for all schedules under Separate, a condition on the operations of the blocks, and under OneWriter, a condition on the writes in the blocks (no bit is written in two blocks). Without it the statement is false already for two orders of the blocks (order_changes_netlist, C93). Partial because the operations (a call to the graph, the variable tracker or the driver map of a signal, under its lock) are steps that are not interrupted (C98 splits them), and because the ranges ports drive and the writes inside each block are aligned (Plain). For whole designs (parallel_netlist_partial) the builder that C94 starts from is that of Phase 1.

### C95 Recording drivers from several threads is like recording them one at a time

- Model: TrackerLocks, ValueTracker. Status: proved.
- Model/TrackerLocks is a step machine for `addDrivers` (source/ValueTracker.cpp:13-284) with seventeen phases per call: lookup of the slot, the counter, `try_emplace_or_cvisit`, the reverse mapping, the shared lock, the test of the sizes, release and exclusive lock, growth, the shared lock again, the lock of the slot, the reference to the driver map, the update and the two releases. Growth counts in `gen`, and an update through a reference from before a growth is a fault, as is an access beyond a vector. Invariants in Proofs/TrackerLocks: drawn numbers are distinct and unused, the holders of each lock are the threads in the phases between taking and releasing it, a thread past the size test has its slot within the vectors, and the driver map of every symbol is what the updates logged so far give one at a time. Proofs/TrackerRuns relates that to `Tracker.run`, the sequential model of C28-C30, and has a measure for termination. Progress holds also for implementations of `shared_mutex` that hold new readers back while a writer waits (`HeldBack`). The example is a race for the slot of a signal in which a number is wasted and both threads ask for the exclusive lock.
- Proved for all programs, all schedules and all trackers that no thread is using. The order is that of the updates. Memory is sequentially consistent; exceptions from allocation are not modelled.

### C96 The parallel Phase 2 cannot deadlock

- Model: Tasks, Script, Locks. Status: partial.
- Model/Tasks is a step machine for Phase 2: each task does the operations of its block (Model/Script), each operation as one first step (a node, a recording, a read into the buffer of the task) and a list of jobs; a job is a lookup and an `addDependency` (source/NetlistBuilder.cpp:69-106), whose `addEdge` and `addNewEdge` are the lock-level steps of Model/Locks. The invariant (`TaskInv`, Proofs/Tasks) says which dependencies a task may add (`Allowed`): from a node only it knows to such a node or one that all can see, from one that all can see to one only it knows, or from its own register to a node of Phase 1. That scripts of blocks keep to this (`Tame`) follows from how a block is analysed (Proofs/ScheduleDesign). A chain of waiting tasks then climbs from private nodes over registers to nodes of Phase 1 (`nodeRank`) and ends. Proofs/TasksEnd has the measure for termination. `cross_deadlock` shows that the machine can deadlock on other operations.
- Proved for all schedules of small steps and all designs whose writes inside each block, and the ranges ports drive, are aligned (Plain) and whose blocks do not write a port symbol by its own name. Memory is sequentially consistent, creating a node and recording a driver (C95) are one step each, and exceptions from allocation are not modelled. For other operations than those of blocks it is false (cross_deadlock).

### C97 In the parallel Phase 2 all edges between two nodes are the business of one task

- Model: Tasks, Script, Locks. Status: partial.
- From the invariant of C96: two tasks are never `Allowed` the same pair of nodes (`allowed_one`), and what a task is allowed stays so as nodes are added (`FrameLe`).
- Proved under the conditions of C96.

### C98 The parallel Phase 2 in small steps gives the netlist of the sequential build

- Model: Tasks, Script, Locks. Status: partial.
- A simulation of the step machine by `Bld.tasks` of C94 (`Coupled`, Proofs/TaskRun): an operation takes effect there when its first step is taken, and until its jobs are done the graph of the step machine lags behind. Between two nodes that at most one task works on (C97) the lag is what is left of the calls of that task (`EdgeSim`, Proofs/TaskSim): applying the rest to the annotations of the pair gives those of the graph of whole operations. Every step keeps this: `addEdge` in the step machine tests, appends at the source and then at the target, so graphs in between are not reachable by calls, and Proofs/TaskGraph redoes the laws of `addDependency` for graphs whose out lists alone are in order (`OutOk`). For the in lists Proofs/TaskIn follows the one edge a thread has put on the out list and not yet on the in list (`InLag`). The lookups of an operation give the same at its jobs as at its first step since no other task registers what it looks up (`Separate`). An operation that goes wrong does so at its first step (`act_fail`). At the end nothing is left to do, so the graphs agree in nodes and annotations (`NetAlike`, Proofs/TaskAlike), and the resolution of pending reads keeps that.
- Proved for all schedules of small steps under OneWriter (no bit is written in two blocks) and Plain (aligned writes). Partial because memory is sequentially consistent, because recording a driver (C95) and registering a variable node are one step each, and because of Plain. The in list of a node agrees with the out lists for each source; across sources its order may differ, and so does that of an out list across targets.

### C99 A value that passes through an interface is followed by the netlist

- Model: Dataflow, Build, Traverse, Netlist. Status: partial.
- The invariant of the analysis of one block (`Linked.behind`, Proofs/DataflowUse) says that a read through a modport port of which some bit has not been written before is entered from the nodes of all ranges behind it; that of the merging of blocks (`Done.given`, `Done.same`, Proofs/Build) says that each assignment that leaves a value enters the variable nodes behind its target, and that the node table of signals that no clocked block writes stays that of Phase 1. `variable_at` finds the nodes of an interface variable after Phase 1 from the events of the design; direct reads are resolved in Phase 4 by exact range (`Whole.look`). The example design has a producer, a consumer and a direct read; its fourth assignment, a read of half of the variable, is the witness of disagreement 58.
- Proved for all designs of C62 and all blocks. Partial because a read must have the very range of a node (false otherwise: part_of_interface_lost), because a direct write must have it too, because variables written at a clock edge are left out (interface_register_bypassed, C57), and because a modport port that is written must stand for the range in all its uses: the model of the flow inside a block (Leaves) does not follow the expression of a write.

### C100 No path, no influence, through interfaces

- Model: Netlist, Traverse, Dataflow, Build. Status: partial.
- `Passes` (Spec/Cycles) has constructors for dependences through an interface, to a read (C99) and to an input port connected to the interface (C101), and `passes_hops` follows it over the variable node, so C69 reports loops through interfaces. `via` gives the bit of an interface variable that a bit of a modport port stands for; `Shared` says that the values agree. A bit that a node reads from outside its block and that differs comes from a source or from a block all of whose assignments of the bit pass their values to the node (`fetch_via`, Proofs/IfaceInfluence), directly, up and down through ports, or over an interface. The rest is the induction of C71 along the acyclic relation `Passes`.
- For the designs of C71 (RegularVia repeats its conditions) whose interface variables are read in the ranges in which they are driven, not written at clock edges and connected to ports of modules only as C101 allows: input ports, in the range of a node, after the interface. Without these the influence is lost (part_of_interface_lost, C99; output_on_interface_lost and late_interface_lost, C101). Loops through interfaces: cycle_reported_partial (C69), whose dependences include those of C99.

### C101 Ports connected to interface signals take part in the interface

- Model: Traverse, Netlist, Build. Status: partial.
- Connections are handled in Phase 1. An input connected to a modport port gets its edges at once from the variable nodes met so far (`Eff.modport`, Proofs/Wiring), and the node table of a variable does not change between its declaration and the end of Phase 1 (`connect_modport`); one connected to the variable is pending as a whole (`connect_whole`) and is resolved by exact range. For outputs, C65 says what justifies an edge; all justifications of an edge into a variable node are assignments (`variables_entered_by_assignments`, by cases), so the missing edge is missing in every design. The witnesses are one design, with the interface first and last.
- Input ports: proved for all designs of C62 if a variable behind a modport port is met before the connection (false otherwise: late_interface_lost) and is behind all uses of the modport port, and if a variable that is connected directly is connected in the range of a node and not written at a clock edge. Output ports: false, and for all designs, since only assignments enter nodes of interface variables (variables_entered_by_assignments); output_on_interface_lost is a design in which the dependency is lost.

### C102 No path, no influence over time, through interfaces

- Model: Traverse, Build, Dataflow, Query, Loops. Status: partial.
- A register written through a modport port leaves no register node on the way: the assignment enters the variable node (C57, `interface_register_bypassed`), so the step over the interface is a path like a combinational one (`crosses_hops`, Props/Cycles). `Hands` (Spec/Clock) has a constructor for it, next to those for registers, and `hands_reach` follows both, for C81 and here. Proofs/IfaceClock repeats the induction of C81 on time (`registerVia_reached`) with the sources of C100; the differing bit of an interface that a node reads comes from a combinational block, or from an edge-triggered one that scheduled it (`reads_via`). Props/IfaceClock has a design with a register written through one modport and read through another. Props/IfaceTick has the witness that what a clock does to such a register is lost.
- For designs of C100 whose edge-triggered blocks are as in C81 or write modport ports in the range of a node of the variable (an edge-triggered write of the variable itself is left out, see C57). Reads of interfaces in edge-triggered blocks are in the range of a node. Effects on when a block fires are left out (C105 has them); for registers on an interface they are really lost (clock_lost_on_interface).

### C103 Netlists of one process do not disturb each other's node IDs

- Model: Process, Netlist. Status: partial.
- Model/Process lets calls on several netlists draw IDs from one counter, in any order. Invariant over the history (`below_step`): the IDs of a netlist are distinct and lie below a bound, which is at most the counter unless a builder was constructed after a node was added. `jobs_ids` cuts the history into jobs (`split_flatten`). The analysis of a block (Model/Dataflow) compares nodes where `merge` compares IDs; `merge_distinct` says when this is the same.
- Proved for netlists during whose making no builder is constructed, in particular for all netlists that are built and loaded one after another, and for loads at the same time. False for two builds, or a build and a load, at the same time: IDs repeat in one netlist, merge takes two nodes for one (builds_collide), and saving moves edges (build_disturbs_load, C40).

### C104 No path, no influence through interfaces, from the text

- Model: Elab, Align, Traverse, Build, Dataflow, Query, Loops. Status: partial.
- Props/TextIface composes what the text means for what the analysis sees of it (`text_meaning` of C72, `text_over_time` of C91) with C100 and C102, applied to the design seen with spots. A bit that comes from outside and differs is not wired (`wired_constant`). The design in the example has the text of an assignment to one modport, a register and a wire that read the other.
- C100 and C102 from the text of the design (as C72 and C91 are C71 and C90 from the text). Left sides and aligned right sides select statically; the designs are those of C100 and C102. What a modport port stands for, bit by bit, is a hypothesis on the values (Shared) and not read off the text of the modport.

### C105 No path, no influence through clocks and interfaces

- Model: Traverse, Build, Dataflow, Query, Loops. Status: partial.
- Spec/TickVia has the dependences (`MovesVia`: those of C90 for registers off the interfaces, and from an assignment of an edge-triggered block over an interface), and what clocks may be (`ClocksOff`). Proofs/TickVia follows a difference back in time, by induction over the time as in C90: a register off the interfaces differs because what it loads differs or because its block fires in one observation only; one on an interface only because of what it loads. Props/TickVia joins the steps to paths with `moves_back` of C90, whose hypotheses are now only about registers off the interfaces (`Keeping`), and `crosses_hops` (Props/Cycles). Props/TextTickVia gives the text of the design a meaning with `text_over_time` of C91, which now also says that a block as the analysis sees it fires when the block of the text does. In the example a register with a computed clock is loaded over an interface from a register of another clock.
- C90 for the designs of C102, for what the analysis sees and for the text of the design (text_*; without dynamic selects, as C91). Blocks that write registers on interfaces have to fire at the same times in both observations, without which the statement is false (clock_lost_on_interface, C102). Left out: designs that are not regular or not timed, and clocks that come over an interface, through a port connected to one included. A register that is a clock is written as a whole.

### C106 Early exits

- Model: Jump, Dataflow. Status: partial.
- Spec/Jump gives the paths through a statement with jumps and how they end (`JRuns`), and those of a loop with `continue` and `break` (`JLoopRuns`), without states. `execJ_ok` is an induction over the statement whose hypothesis also speaks about the states kept at jumps: each list of them together agrees with the paths that take such a jump (`SemAll`), which later steps preserve because they only extend the tracker and the graph. Joining the lists at the end of a scope is an induction over `joinState_ok` (C34). `jump_loop_runs` relates the nesting of scopes to loops.
- The drivers at the end of a block with jumps, exactly, for ranges as in C34; loops are unrolled, with the join of the state before the loop that C88 has. That the states at jumps are kept and joined at the place they lead to is an assumption on slang. Non-blocking assignments in dead code (jump_dead_recorded) and before an early exit (jump_early_lost) are recorded wrongly, as without jumps. Reads see what arrives, jumps taken before left out (jump_read_linked_partial, as C32); the condition of an exit controls the next assignment (jump_controls_partial), but its influence on later ones is lost (jump_condition_lost).

### C107 A loaded netlist is what the file says

- Model: Serial. Status: proved.
- Spec/LoadData relates JSON entries to nodes and annotations (`NodeSays`, `EdgeSays`), with the rules for unknown names and numbers out of range of C41. `load_spec` (C41) gives the lists the loops read; `readEdges_at` is an induction over the entries that also follows the symbol table, `foldl_putEdge_last` one over the insertions into the graph.
- Relative to the constant codec (a parameter) and to the JSON library as modelled for C41.

### C108 Assignments inside expressions

- Model: Nested, Dataflow. Status: partial.
- `Dfa.visitE` enters the handler of an assignment again for an inner one and keeps the members it changes. Spec/Nested gives the writes with the assignment each belongs to (`ownWrites`, `NRuns`) and the block with the assignments taken out of the expressions (`unnest`). `visitE_takenOut` is an induction over the visit: it equals the visit of the uses before the first inner assignment, followed by the assignments one after the other. The drivers then follow from C34; for the bit-aligned walk, which resets node and condition for each segment, `visitE_ok` is a separate induction over the visit. That later uses do not reach the outer node follows from a frame argument over C32 (`Frozen`: a node that is not the current one gets no edges and no pending reads). That earlier ones do (`nested_read_linked_partial`) follows from the account of reads in C32.
- The drivers are right if no left-hand side contains an assignment; what an outer assignment reads is not, and the code contradicts the claim: of what is visited for it, only the uses before the first inner assignment reach its node, and those are connected (disagreement 64). In the bit-aligned walk the drivers are proved for blocking assignments inside blocking ones; for non-blocking outer ones the code contradicts the claim.

### C109 A force statement drives nothing

- Model: Elab, Dataflow. Status: partial.
- `unforced` takes the `force` statements out of a text. `unforced_writes` is an induction over the text: what the analysis sees of both texts makes the same writes, on the same paths (`elabAsg_force`: in both walks nothing of a `force` is noted as written). The drivers then follow from C34, and what a later read is connected to from C32. The two witnesses are evaluated on one block, in both walks where they agree.
- The drivers and what later reads are connected to are the same with and without force statements, for written ranges with at most one boundary strictly inside each. The code contradicts the other two parts (disagreements 43 and 65).

### C110 The options for bits change no drivers

- Model: Elab, BitSlice, Dataflow. Status: partial.
- The two settings are two arbitrary `SynEnv`. `asg_bits`: in either walk the bits written are those the left side stands for (from C27 for the aligned walk, from C74 for the other). `tidy_ends` is an induction over the text: every path under one setting has a path under the other on which every bit is written last by the same assignment. The drivers then follow from C34 applied to both.
- Proved for texts of force statements and assignments with static targets and sides of equal width, without unreachable parts and automatic variables, for written ranges with at most one boundary strictly inside each. For targets with variable index, unreachable non-blocking assignments and automatic variables the code contradicts the claim (disagreement 66).

### C111 Automatic variables are skipped

- Model: Dataflow, Elab, BitSlice. Status: partial.
- Spec/Automatic takes the uses of automatic variables out of a block and keeps everything else. Inductions over uses, sources, segments and the statement show that the two runs are equal, state by state. The witnesses are evaluated, among them the design of the test in the repository, under both settings.
- Exact equality for all states, if no part of an assignment resolved bit by bit is an automatic variable by itself; in particular for all texts if bits are not resolved (automatic_text). Otherwise, with the default options, the code contradicts the claim (automatic_with_bits, disagreement 67).

### C112 Unreachable code records nothing

- Model: Dataflow. Status: partial.
- Spec/Unreachable says what may differ between two states (`Untouched`). `Asleep` and `DeadAt` are the invariant: since the jump nothing was recorded, all new edges are between new nodes, and the current node and condition are new nodes. An induction over the statement preserves it; joining two unreachable states may add merge nodes, between new nodes.
- Proved for all states and all unreachable code whose assignments are not resolved bit by bit, conditionals and joins in it included; the analysis of it succeeds. Otherwise the code contradicts the claim (disagreement 68).

## Disagreements

Behaviour of the code that contradicts a property, its documentation or an evident intention. Each is
proved as a witness theorem unless marked "(by reading)".

1. `find(n, n)` and `findComb(n, n)` always return an empty path (`path_to_self_is_empty`).
2. `getConstantDrivers` never sees registers, so a node fed by a register and a constant counts as tied
   off; `isDriven` counts disabled edges (`constant_drivers_ignore_registers`,
   `constant_drivers_ignore_disabled`).
3. `detectCycles` does not list every cycle (`some_loops_are_missed`).
4. Two threads inserting reciprocal edges can deadlock (`reciprocal_insertions_deadlock`); the developer
   guide (docs/developer-guide.dox:284-288) says this is avoided. Concurrent `addNewEdge` can leave an
   in-list order for which a later `removeEdge` leaves a dangling entry (`parallel_edges_dangle`).
5. Loading uses the de-duplicating `addEdge`, so parallel edges are lost (`parallel_edges_lost`).
6. The name index is never invalidated (`lookup_is_stale`).
7. A second signal or edge kind on a node pair replaces the first (`second_signal_replaces_first`,
   `second_kind_replaces_first`).
8. Splitting a driver interval gives both halves the same list handle: later changes of one half show in
   the other, and the list can be released while still in use (`overwrite_leaks_to_other_bits`,
   `released_list_is_used`, `released_list_is_reused`, `reaching_definitions_wrong`).
9. `getDrivers` on a driver map skips partially overlapping intervals (`partial_overlap_not_read`), and a
   read that partially overlaps a definition gets no dependency (`read_overlap_lost`).
10. The interval difference keeps a covered point in one case and overflows at the largest `int32`
    (`difference_keeps_covered_point`, `difference_overflow`, `driver_map_overflow`).
11. `collectSensitivity` drops events on selects and expressions; a block with only such events is
    combinational, although the comment at source/NetlistBuilder.cpp:148-149 says otherwise
    (`select_clock_is_combinational`, `select_event_dropped`). `iff` conditions are not read (by reading).
12. Of non-blocking assignments in two branches only the textually last one drives the register
    (`nonblocking_branch_lost`).
13. Dynamic selects are not opaque in the bit-aligned path, and with cut hints the list has the wrong
    width (`dynamic_select_loses`, `dynamic_target_loses`, `dynamic_select_breaks_width`).
14. `resolveParallel` sorts unstably by pointer, so annotations can differ from sequential mode
    (`sort_order_shows`).
15. A second `build` on the same graph repeats node IDs (`ids_collide_after_second_build`).
16. `VariableTracker::lookup` misses ranges with descending bounds (`descending_range_not_found`).
17. DOT labels are not escaped (`dot_labels_not_escaped`).
18. The glob `top....leaf` ignores segment boundaries (`four_dots_ignore_boundaries`).
19. An explicit `--fan-in` loses to a lone `--from`; `--report-registers=false` still reports
    (`explicit_fanIn_loses`, `false_flag_is_ignored`).
20. `formatTable` drops cells beyond the header (`table_drops_extra_cells`).
21. A path report through an inout or ref port is undefined, and the printed value may belong to a disabled
    edge (`inout_path_undefined`, `path_text_may_name_disabled_edge`).
22. `mergeStates` forgets the current node when both branches end in the same node
    (`empty_branches_lose_node`).
23. The left-hand side is driven before the right-hand side is visited: `a = a + 1` reads its own node
    (`self_assignment_reads_itself`).
24. Sign-extension bits carry no dependency; narrowing is coarse (`sign_extension_loses`,
    `narrowing_is_coarse`).
25. Cut collection records endpoint 0 for a zero-width part and no cuts for conditional actuals
    (`zero_width_records_endpoint`, `conditional_records_no_cut`).
26. The serializer's version test wraps; duplicate IDs connect the wrong nodes; in-edge order changes
    (`version_check_is_lossy`, `repeated_ids_move_edges`, `in_edge_order_changes`). An unknown node kind is
    read as `None` (by reading).
27. Reads of part of a register, or of more than it, get no dependency on it (`half_register_read_lost`,
    `partial_register_read_lost`).
28. Sequential writes through a modport or to an interface variable bypass the register
    (`modport_register_bypassed`, `interface_register_bypassed`).
29. An output port range straddling two port nodes is connected to neither
    (`straddling_port_unconnected`); signals with several port back references are ignored (by reading).
30. The bit-aligned path skips the reachability test: dead non-blocking assignments become drivers
    (`dead_nonblocking_recorded`).
31. Only the first assignment of a branch gets the control edge, and an assignment after an `if` without
    `else` may get one (`second_assignment_uncontrolled`, `later_assignment_controlled`).
32. When several blocks throw, the exception reported by the parallel build depends on the schedule
    (`exception_choice_depends_on_schedule`).
33. If an instance inside a copied instance is itself marked as a copy, the canonical counterpart depends on
    earlier queries (`canonical_order_matters`).
34. A multi-port connection (`.{a, b}` in a port list) ends in `SLANG_UNREACHABLE`
    (`multi_port_faults`).
35. An output connected to a form other than a selected signal or a concatenation, such as a streaming
    concatenation, does not drive the signal; the port is made to read it (`opaque_output_reads`).
36. A read that has no assignment or condition of its own, such as an argument of a system task after an
    assignment, is attributed to the node before it, so the assignment appears to depend on it
    (`bare_read_feeds_assignment`).
37. An edge inside a block carries the whole range of the read even where the source assigns only a part
    of it (`inner_edge_carries_whole_read`).
38. A combinational loop through a condition is not reported when another assignment stands before the one
    on the loop in the branch: `if (c) begin d = a; b = a; end` with `c = b` (`guarded_loop_missed`). The
    condition has an edge to the first assignment only, because `updateNode` clears it
    (source/DataFlowAnalysis.cpp:196-213).
39. A condition influences every assignment of its branches but has a path to the first one only, so the
    netlist lacks paths for real influences: after `if (c) begin e = a; b = a; end else begin e = 0; b = 0;
    end` no path leads from `c` to `b` (`influence_lost_second`).
40. The segments of one assignment are handled one after the other, so a later segment reads what an earlier
    one of the same assignment has written: after `p = a; q = c; {p, q} = {q, p}; b = p;` no path leads from
    `c` to `b`, though `b` is `c`, and one leads from `a`, though `b` does not depend on it
    (`influence_lost_swap`; source/DataFlowAnalysis.cpp:249-349).
41. Sign extension has no source in the aligned walk, so an influence of the sign bit is lost: after
    `c = $signed(a[3:0]); b = c[7:4];` no path leads from `a` to `b` (`influence_lost_sign`;
    source/BitSliceList.cpp:61-239).
42. A select from something that has no symbol, such as the result of a call, is passed on as that of a
    signal, and the aligned walk dereferences the missing symbol (`rootless_select`;
    source/DataFlowAnalysis.cpp:465-497); the walk that does not resolve bits skips it.
43. The target of a `force` statement is noted as read if the assignment is taken as a whole, and not at all if
    bits are resolved (`force_reads_target`; source/DataFlowAnalysis.cpp:233-243, 299-309).
44. `slang-report` rejects a scope pattern as matching no symbols when the symbols it matches were selected by an
    earlier `--scope` (`covered_pattern_rejected`; tools/report/report.cpp:183-189). The manual says that an
    error is reported if a glob matches nothing.
45. `slang-report` lists a declaration once for every selected scope that contains it, so `--scope top --scope
    top.u` and `--scope '**'` repeat rows (`nested_scopes_repeat`; tools/report/report.cpp:244-246).
46. The report visitors enter the canonical body of an instance (`VisitFlags::Canonical`), so of two instances
    that share a body one is never listed and the other is listed twice (`shared_body_misreported`;
    include/report/ReportVisitorBase.hpp:30-33). This rests on the meaning of the flag in slang.
47. `slang-report` accepts several actions and makes the first of ports, variables and drivers; `--ports=false`
    makes the port report; `--format` is not checked with `--ast-json` (`several_actions_accepted`;
    tools/report/report.cpp:204-280). The manual asks for exactly one action.
48. Resolving a modport reference whose expansion delivers the reference itself recurses without end
    (`self_expanding_reference`; source/NetlistBuilder.cpp:203-206). Whether slang delivers such a path was
    not examined.
49. An influence over time is lost when a register is loaded in both alternatives of a conditional:
    with `if (c) b <= a; else b <= 0;` input `a` determines register `b`, but no path leads from `a` to
    `b`, because only the textually last non-blocking assignment of a bit is recorded
    (`influence_lost_first`; the cause is the one of C33).
50. A report on a loaded netlist can differ from the report on the netlist that was saved: after
    `assign b = a; assign d = b[0] ^ b[2];` the driver report of `b` has three rows, after saving and
    loading it has two (`reload_loses_driver`; the cause is the one of item 5, for a netlist the builder
    really makes).
51. A run can end with status 0 although an option was ignored: with `--load-netlist` and
    `--save-netlist` nothing is saved, and with `--save-netlist` no query is run (`run_skips`).
52. In Python, a handle of a node can outlive the graph that owns the node: `n = g.lookup("m.a"); del g;
    n.path` reads freed memory (`py_lookup_dangles`), as do handles from all other queries and from
    paths (`py_query_unprotected`). Handles from `for n in g` keep the graph alive (`py_iterated_safe`),
    but not if a query had given a handle of that node before, since pybind11 then returns the old
    object (`py_iteration_dangles`). `front`, `back` and `[i]` of a path do not check that the node
    exists, and going on with an iteration after `build` uses an iterator that is no longer valid
    (`py_misuse`).
53. A read in a branch of a parallel block is linked only to definitions before the block and in the same
    branch: after `a = 0; fork a = x; y = a; join` no edge leads from `a = x` to `y = a` (`fork_read_lost`;
    source/DataFlowAnalysis.cpp:432-454). After the block, definitions that every order overwrites are kept
    (`fork_overwritten_kept`). This rests on slang visiting every branch from the state before the block.
54. After an unrolled loop, definitions from before the loop are kept although the iterations overwrite them
    (`static_loop_keeps`; tests/unit/LoopTests.cpp:30,34 expects the merge that causes this). Assignments in the
    body of a loop that is not unrolled are lost after the loop (`open_loop_lost`, which the project documents in
    tests/unit/LoopTests.cpp:77-78) and in later runs of the body (`open_loop_not_carried`). The
    reads of its condition belong to the assignment in front of the loop (`open_loop_condition`).
55. The visitor run before freezing is said to visit every node of the AST; it leaves out the initializers of values
    and of static variables, and modules outside the design (`visit_skips`). Nothing analysed later is left out.
56. A clock that is a register written in part does not reach the registers it clocks: with
    `always_ff @(posedge clk) q[3:0] <= a[3:0]; always_ff @(posedge q) b <= c;` input `a` decides when `b` is loaded,
    but no path leads from `a` to `b`, because the range of the whole signal is compared for equality with the range
    written (`clock_influence_lost`; source/PendingRvalueQueue.cpp, the cause is the one of C56 for registers).
57. The netlist depends on the order in which the deferred blocks are analysed, and so, in a parallel build, on the
    schedule: with `always_ff @(posedge clk) begin x <= a; x[3:0] <= b; end` and a read through a modport port that
    stands for `x[7:4]`, the edge from the register of `x[7:4]` to the reader exists only if the clocked block comes
    first (`order_changes_netlist`). Reads and writes through modports look the variable's nodes up at once
    (source/NetlistBuilder.cpp:267-273, 393-409), while registers of the same variable are entered as blocks are
    merged (source/NodeFactory.cpp:76-84).
58. A read of part of an interface variable that is driven as a whole gets no dependency on it: with
    `assign i.a = x;` on one side of an interface and `assign n = i.a[3:0];` on the other, nothing enters the second
    assignment (`part_of_interface_lost`), because the nodes of interface variables are looked up by their exact
    range (source/NetlistBuilder.cpp:268-271; slang is taken to resolve the read to `a[3:0]`).
59. An output port that is connected to an interface signal is not a driver of it for the other sides of the
    interface: in `src s(.o(i.b));` the port only becomes a driver of the name used in the connection
    (source/PortConnectionHandler.cpp:288-291, 399-401), while readers on other sides look at the node of the variable
    (source/NetlistBuilder.cpp:267-273), and only assignments enter that (`variables_entered_by_assignments`,
    `output_on_interface_lost`).
60. An input port that is connected through a modport port to a variable of an interface whose instance comes later
    in the design gets no dependency on it (`late_interface_lost`): the variable's node is looked up when the
    connection is visited, not at the end (source/NetlistBuilder.cpp:267-273). Reads in blocks do not depend on this
    order. Whether slang accepts the instance of the interface after its use is not modelled.
61. Node IDs come from one counter for the whole process, which every `NetlistBuilder` sets back to one
    (source/NetlistBuilder.cpp:41). If two netlists are built at the same time, or one is loaded while another is built,
    IDs repeat within one netlist (`builds_collide`, `build_disturbs_load`). `NetlistBuilder::merge` compares IDs
    (source/NetlistBuilder.cpp:248), so two branch ends with the same ID are taken for one node and no merge node is made,
    and the file of such a netlist, which names nodes by their IDs, loads as another netlist (`repeated_ids_move_edges`).
62. What a clock does to a register on an interface is lost: with `assign k = a;`, `always_ff @(posedge k) i.m <= c;`
    on one side of an interface and `assign y = i.m;` on the other, input `a` decides when `i.m` is loaded, but no path
    leads from `a` to `y` (`clock_lost_on_interface`). The clock's edge goes to the state node of the modport port
    (source/PendingRvalueQueue.cpp, source/NetlistBuilder.cpp: mergeDrivers), and readers on the other side hang on the
    variable node, which only the assignment enters (`modport_register_bypassed`).
63. The condition of an early exit is only joined to the next assignment (C60 explains why: later assignments do not look
    at the condition any more). With `for (…) begin if (x[i]) break; a[i] = …; end`, input `x[0]` decides whether `a[1]`
    is written, but no path leads from the condition to the assignment in the second iteration (`jump_condition_lost`).
    Relative to the assumption on how slang visits jumps (`Verif.Model.Jump`).
64. An assignment inside an expression (`a = (b = c) + d`, or the argument of a call for an output formal) replaces the
    current node, and nothing restores it. The outer assignment is connected only to what is read before the inner one:
    `d` counts as read by the inner assignment (`nested_read_misplaced`), and the value of the inner one is not
    connected to the outer (`nested_value_lost`, `nested_outer_closed` in general). In a condition it also takes the
    place of the conditional: what `if (b = c)` guards is not connected to it (`nested_condition_lost`). Whether an assignment is blocking is
    not restored either: in `m[i = k] <= x` and in `{e, a} <= {d, f(b = c)}` part of the non-blocking assignment is
    recorded as blocking, in the former for the wrong assignment (`nested_lhs_wrong`, `nested_segment_wrong`).
    See source/DataFlowAnalysis.cpp:227-349.
65. A `force` statement becomes the current node and clears the current condition like an assignment that drives
    something: in `if (c) begin force b = d; e = a; end` the condition is connected to the `force` and not to the assignment
    of `e` (`force_takes_condition`; source/DataFlowAnalysis.cpp:193-213, 227-231). The read of the target (43) makes an
    edge from its last assignment to the `force` (`force_reads_signal`).
66. Resolving bits changes the drivers: `a[i] = b` with a variable index drives all bits of `a` without resolving bits and
    bit 0 only with it (`bits_option_index`), and a non-blocking assignment in unreachable code is recorded as a driver
    only if bits are resolved (`bits_option_dead`), and so are assignments of automatic variables (`bits_option_auto`): the
    aligned walk does not go through `noteReference` (source/DataFlowAnalysis.cpp:154-194, 299-309, 465-480).
67. Automatic variables are skipped only by `noteReference`. With the default options `t = a; l = t; b = l` with an automatic
    `l` of the same width is followed from `a` to `b` and `l` has a driver (`automatic_with_bits`); without resolving bits it
    is not (`automatic_value_lost`). The test for this (tests/unit/DatatypeTests.cpp:179-193) has a wider `l`, whose narrowing in
    `b = l` is opaque, so it passes under both settings (`automatic_test`). See source/DataFlowAnalysis.cpp:178-184, 465-497.
68. `noteReference` leaves out what is unreachable ("we don't count a symbol as being referenced in the procedure if it's only
    used inside an unreachable flow path"), but with bits resolved, the default, targets and sources do not go through it: the
    unreachable `return; r <= b; d = b` records a driver of `r` and a read of `b` (`unreachable_with_bits`;
    source/DataFlowAnalysis.cpp:154-170, 297-319, 465-497).
